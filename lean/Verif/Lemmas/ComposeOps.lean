import Verif.Lemmas.Compose

set_option autoImplicit false

noncomputable section
namespace Verif.Compose

/-- The heap grew: well-formed, and nothing that existed was changed. -/
structure Grow (h h' : Heap) : Prop where
  wf : WF h'
  keep : ∀ (s : Ref) o, h[s]? = some o → h'[s]? = some o

theorem Grow.refl {h : Heap} (w : WF h) : Grow h h := ⟨w, fun _ _ k => k⟩
theorem Grow.trans {a b c : Heap} (p : Grow a b) (q : Grow b c) : Grow a c :=
  ⟨q.wf, fun s o k => q.keep s o (p.keep s o k)⟩
theorem Grow.leaf {h : Heap} (w : WF h) {l : Leaf} (v : l.valid) : Grow h (h ++ [.leaf l]) :=
  ⟨w.append_leaf v, fun _ _ k => getElem?_append_some k⟩
theorem Grow.ext {h h' : Heap} (g : Grow h h') : Ext h h' := fun r l k => ⟨l, g.keep r _ k, .refl l⟩

theorem mkComp_grow {h : Heap} (w : WF h) {n dim : Nat} {args : List Val}
    (hd : dim = 1 ∨ dim = 2 ∨ dim = 3) : Grow h (mkComp n dim args h).2 :=
  ⟨mkComp_wf w hd, fun s o k => mkComp_keep s o k⟩

theorem mapRefs_grow {g : Ref → Heap → Except Err Ref × Heap}
    (hg : ∀ h r, WF h → Grow h (g r h).2) : ∀ (rs : List Ref) {h : Heap}, WF h → Grow h (mapRefs g rs h).2
  | [], h, w => .refl w
  | r :: rs, h, w => by
    rw [mapRefs]
    have g1 := hg h r w
    rcases hgr : g r h with ⟨(e | r'), h'⟩
    · rw [hgr] at g1; simpa only using g1
    · rw [hgr] at g1
      have g2 := mapRefs_grow hg rs g1.wf
      simp only at g2 ⊢
      rcases hm : mapRefs g rs h' with ⟨(e | rs'), h''⟩
      · rw [hm] at g2; simpa only using g1.trans g2
      · rw [hm] at g2; simpa only using g1.trans g2

theorem Leaf.toPlanar_valid {l : Leaf} (v : l.valid) (h3 : l.dim ≠ 1) : l.toPlanar.valid := by
  rcases v with ⟨a, -, -⟩ | ⟨-, b⟩
  · exact absurd a h3
  · right
    refine ⟨.inl rfl, ?_⟩
    simp only [Leaf.toPlanar]
    split
    · rfl
    · exact b

theorem Leaf.mul_valid {l : Leaf} (v : l.valid) (b : ℝ) : (l.mul b).valid := v

/-- A member of a combination of dimension ≠ 1 has dimension ≠ 1. -/
theorem planarLeaf_grow {h : Heap} (w : WF h) {r : Ref} (k : ∀ l, IsLeaf h r l → l.dim ≠ 1) :
    Grow h (planarLeaf r h).2 := by
  unfold planarLeaf
  cases hr : h[r]? with
  | none => exact .refl w
  | some o =>
    cases o with
    | leaf l => exact .leaf w (Leaf.toPlanar_valid (w.leaf r l hr) (k l hr))
    | comp c => exact .refl w

theorem mapPlanar_grow : ∀ (rs : List Ref) {h : Heap}, WF h → (∀ r ∈ rs, ∀ l, IsLeaf h r l → l.dim ≠ 1) →
    (∀ r ∈ rs, ∃ l, IsLeaf h r l) → Grow h (mapRefs planarLeaf rs h).2
  | [], h, w, _, _ => .refl w
  | r :: rs, h, w, k, q => by
    rw [mapRefs]
    have g1 := planarLeaf_grow w (k r (by simp))
    rcases hgr : planarLeaf r h with ⟨(e | r'), h'⟩
    · rw [hgr] at g1; simpa only using g1
    · rw [hgr] at g1
      have q' : ∀ s ∈ rs, ∃ l, IsLeaf h s l := fun s hs => q s (by simp [hs])
      have g2 := mapPlanar_grow rs g1.wf (fun s hs l hl => by
        obtain ⟨m, hm⟩ := q' s hs
        rw [isLeaf_unique hl (g1.keep s _ hm)]
        exact k s (by simp [hs]) m hm) (fun s hs => by
        obtain ⟨m, hm⟩ := q' s hs
        exact ⟨m, g1.keep s _ hm⟩)
      rcases hm : mapRefs planarLeaf rs h' with ⟨(e | rs'), h''⟩
      · rw [hm] at g2; simp only [hm]; exact g1.trans g2
      · rw [hm] at g2; simp only [hm]; exact g1.trans g2

theorem comp_planar {h : Heap} (w : WF h) {r : Ref} {c : Comp} (hr : h[r]? = some (.comp c)) (h1 : c.dim ≠ 1) :
    Grow h (mapRefs planarLeaf c.members h).2 := by
  have ok := w.comp r c hr
  refine mapPlanar_grow c.members w (fun s hs l hl => ?_) (fun s hs => ?_)
  · obtain ⟨m, hm, hd⟩ := ok.flat s hs
    rw [isLeaf_unique hl hm, hd]; exact h1
  · obtain ⟨m, hm, -⟩ := ok.flat s hs
    exact ⟨m, hm⟩

theorem toPlanar_grow {h : Heap} (w : WF h) {n : Nat} {r : Ref}
    (k : ∀ o, h[r]? = some o → o.dim ≠ 1) : Grow h (toPlanar n r h).2 := by
  unfold toPlanar
  cases hr : h[r]? with
  | none => exact .refl w
  | some o =>
    cases o with
    | leaf l => exact .leaf w (Leaf.toPlanar_valid (w.leaf r l hr) (k _ hr))
    | comp c =>
      have g := comp_planar w hr (k _ hr)
      rcases hm : mapRefs planarLeaf c.members h with ⟨(e | rs), h'⟩
      · rw [hm] at g; simp only [hm]; exact g
      · rw [hm] at g; simp only [hm]; exact g.trans (mkComp_grow g.wf (by simp))

theorem mulRef_grow (N : Nat) (b : ℝ) : ∀ (n : Nat) (h : Heap) (a : Ref), WF h → Grow h (mulRef N b n a h).2
  | 0, h, a, w => .refl w
  | n + 1, h, a, w => by
    rw [mulRef]
    cases ha : h[a]? with
    | none => exact .refl w
    | some o =>
      cases o with
      | leaf l => exact .leaf w (Leaf.mul_valid (w.leaf a l ha) b)
      | comp c =>
        have g := mapRefs_grow (g := mulRef N b n) (fun h r w => mulRef_grow N b n h r w) c.members w
        rcases hm : mapRefs (mulRef N b n) c.members h with ⟨(e | rs), h'⟩
        · rw [hm] at g; simp only [hm]; exact g
        · rw [hm] at g; simp only [hm]; exact g.trans (mkComp_grow g.wf (w.comp a c ha).dims)

theorem leaf_dims {h : Heap} (w : WF h) {r : Ref} {l : Leaf} (k : IsLeaf h r l) :
    l.dim = 1 ∨ l.dim = 2 ∨ l.dim = 3 := by
  rcases w.leaf r l k with ⟨a, -⟩ | ⟨a, -⟩
  · exact .inl a
  · exact .inr a

theorem obj_dims {h : Heap} (w : WF h) {r : Ref} {o : Obj} (k : h[r]? = some o) :
    o.dim = 1 ∨ o.dim = 2 ∨ o.dim = 3 := by
  cases o with
  | leaf l => exact leaf_dims w k
  | comp c => exact (w.comp r c k).dims

theorem add_grow {h : Heap} (w : WF h) {n : Nat} {a : Ref} {b : Val} : Grow h (add n a b h).2 := by
  unfold add
  cases ha : h[a]? with
  | none => exact .refl w
  | some o =>
    cases o with
    | leaf l =>
      simp only
      cases hb : headDim h n b with
      | error e => exact .refl w
      | ok hd =>
        simp only
        by_cases h1 : l.dim = 1
        · rw [if_pos h1]
          split
          · exact .refl w
          · split
            · exact .refl w
            · exact mkComp_grow w (by simp)
        · rw [if_neg h1]
          split
          · exact .refl w
          · split
            · cases b with
              | ref r =>
                simp only
                split
                · rename_i h3
                  have g := toPlanar_grow w (n := n) (r := r) (fun o ho => by
                    simp only [valDim, ho, Option.map_some] at h3
                    injection h3 with h3; omega)
                  rcases hm : toPlanar n r h with ⟨(e | r'), h'⟩
                  · rw [hm] at g; simpa only using g
                  · rw [hm] at g; simpa only using g.trans (mkComp_grow g.wf (by simp))
                · exact mkComp_grow w (by simp)
              | list vs => exact mkComp_grow w (by simp)
              | junk => exact mkComp_grow w (by simp)
            · split
              · exact .refl w
              · split
                · have g := toPlanar_grow w (n := n) (r := a) (fun o ho => by
                    rw [ha] at ho
                    injection ho with ho
                    rw [← ho]; exact h1)
                  rcases hm : toPlanar n a h with ⟨(e | r'), h'⟩
                  · rw [hm] at g; simpa only using g
                  · rw [hm] at g; simpa only using g.trans (mkComp_grow g.wf (by simp))
                · exact mkComp_grow w (by simp)
    | comp c =>
      have okc := w.comp a c ha
      cases b with
      | list vs => exact .refl w
      | junk => exact .refl w
      | ref r =>
        simp only
        cases hr : h[r]? with
        | none => exact .refl w
        | some o =>
          simp only
          split
          · exact .refl w
          · split
            · exact .refl w
            · split
              · rename_i h3
                have g := comp_planar w ha (by omega)
                rcases hm : mapRefs planarLeaf c.members h with ⟨(e | rs), h'⟩
                · rw [hm] at g; simp only [hm]; exact g
                · rw [hm] at g; simp only [hm]; exact g.trans (mkComp_grow g.wf (by simp))
              · split
                · rename_i h3
                  have g := toPlanar_grow w (n := n) (r := r) (fun o' ho => by
                    rw [hr] at ho
                    injection ho with ho
                    rw [← ho]; omega)
                  rcases hm : toPlanar n r h with ⟨(e | r'), h'⟩
                  · rw [hm] at g; simp only [hm]; exact g
                  · rw [hm] at g; simp only [hm]; exact g.trans (mkComp_grow g.wf (by simp))
                · cases o with
                  | leaf l => exact mkComp_grow w okc.dims
                  | comp d => exact mkComp_grow w okc.dims

theorem getItem_grow {h : Heap} (w : WF h) {n : Nat} {a : Ref} {k : Key} : Grow h (getItem n a k h).2 := by
  unfold getItem
  cases ha : h[a]? with
  | none => exact .refl w
  | some o =>
    cases o with
    | leaf l => exact .refl w
    | comp c =>
      cases k with
      | int k =>
        simp only
        repeat' split
        all_goals exact .refl w
      | slice i j => exact mkComp_grow w (w.comp a c ha).dims

theorem mul_grow {h : Heap} (w : WF h) {n : Nat} {a : Ref} {b : Option ℝ} : Grow h (mul n a b h).2 := by
  cases b with
  | none => exact .refl w
  | some b => exact mulRef_grow n b n h a w

theorem div_grow {h : Heap} (w : WF h) {n : Nat} {a : Ref} {b : ℝ} : Grow h (div n a b h).2 := by
  unfold div
  split
  · exact .refl w
  · exact mul_grow w

/-! ### Item assignment -/

theorem isNonAxi_total {h : Heap} {rs : List Ref} (k : ∀ r ∈ rs, ∃ l, IsLeaf h r l ∧ l.nonAxi.isSome) :
    ∃ b, isNonAxi h rs = .ok b := by
  have : ∀ r ∈ rs, nonAxiOf h r = .ok (match h[r]? with
      | some (.leaf l) => l.nonAxi.getD false
      | _ => false) := by
    intro r hr
    obtain ⟨l, hl, hs⟩ := k r hr
    have hl' : h[r]? = some (.leaf l) := hl
    unfold nonAxiOf
    rw [hl']
    simp only [Obj.nonAxi]
    cases hn : l.nonAxi with
    | none => rw [hn] at hs; exact absurd hs (by simp)
    | some b => rfl
  have e := mapM_ok_of this
  unfold isNonAxi
  exact ⟨_, by rw [e]; rfl⟩

theorem flatten_total {h : Heap} {n : Nat} {rs : List Ref} (k : ∀ r ∈ rs, ∃ l, IsLeaf h r l) :
    rs.mapM (flattenRef h (n + 1)) = .ok (rs.map fun r => [r]) :=
  mapM_ok_of fun r hr => by
    obtain ⟨l, hl⟩ := k r hr
    exact flattenRef_leaf hl

theorem attrs_total {h : Heap} {f : Obj → Bool} {rs : List Ref} (k : ∀ r ∈ rs, ∃ l, IsLeaf h r l) :
    ∃ bs, attrs h f rs = .ok bs :=
  ⟨_, mapM_ok_of (g := fun r => match h[r]? with
      | some o => f o
      | none => false) fun r hr => by
    obtain ⟨l, hl⟩ := k r hr
    have hl' : h[r]? = some (.leaf l) := hl
    rw [hl']⟩

theorem isDissipative_total {h : Heap} {n : Nat} {rs : List Ref} (k : ∀ r ∈ rs, ∃ l, IsLeaf h r l) :
    ∃ b, isDissipative h (n + 1) rs = .ok b := by
  have e : (rs.map fun r => [r]).flatten = rs := by
    induction rs with
    | nil => rfl
    | cons r rs ih => simp [List.map_cons, List.flatten_cons, ih (fun s hs => k s (by simp [hs]))]
  obtain ⟨bs, hb⟩ := attrs_total (f := Obj.dissipative) k
  refine ⟨bs.any id, ?_⟩
  unfold isDissipative
  rw [flatten_total k]
  show (attrs h Obj.dissipative (rs.map fun r => [r]).flatten >>= _) = _
  rw [e, hb]; rfl

theorem checkC_total {h : Heap} {n : Nat} {f : Obj → Bool} {rs : List Ref}
    (k : ∀ r ∈ rs, ∃ l, IsLeaf h r l) : ∃ b, checkC h (n + 1) f rs = .ok b := by
  have e : (rs.map fun r => [r]).flatten = rs := by
    induction rs with
    | nil => rfl
    | cons r rs ih => simp [List.map_cons, List.flatten_cons, ih (fun s hs => k s (by simp [hs]))]
  obtain ⟨bs, hb⟩ := attrs_total (f := f) k
  refine ⟨bs.all id, ?_⟩
  unfold checkC
  rw [flatten_total k]
  show (attrs h f (rs.map fun r => [r]).flatten >>= _) = _
  rw [e, hb]; rfl

theorem recompute_ok {h : Heap} {n : Nat} {c : Comp} (hd : c.dim = 2 ∨ c.dim = 3)
    (k : ∀ r ∈ c.members, ∃ l, IsLeaf h r l ∧ l.dim = c.dim ∧ l.nonAxi.isSome) :
    (recompute h (n + 1) c).1 = .ok () ∧ (recompute h (n + 1) c).2.OK h ∧
      (recompute h (n + 1) c).2.members = c.members ∧ (recompute h (n + 1) c).2.units = c.units ∧
      (recompute h (n + 1) c).2.dim = c.dim := by
  have k1 : ∀ r ∈ c.members, ∃ l, IsLeaf h r l := fun r hr => by
    obtain ⟨l, a, -⟩ := k r hr; exact ⟨l, a⟩
  obtain ⟨b0, e0⟩ := isNonAxi_total (h := h) (rs := c.members) fun r hr => by
    obtain ⟨l, a, -, s⟩ := k r hr; exact ⟨l, a, s⟩
  obtain ⟨b1, e1⟩ := isDissipative_total (n := n) k1
  obtain ⟨b2, e2⟩ := checkC_total (n := n) (f := Obj.hasC) k1
  obtain ⟨b3, e3⟩ := checkC_total (n := n) (f := Obj.hasC_dxdv) k1
  obtain ⟨b4, e4⟩ := checkC_total (n := n) (f := Obj.hasC_dxdv3d) k1
  obtain ⟨b5, e5⟩ := checkC_total (n := n) (f := Obj.hasC_dens) k1
  simp only [recompute, e0, e1, e2, e3, e4, e5]
  refine ⟨trivial, ⟨.inr hd, ?_, ?_, ?_, ?_, ?_, ?_, ?_, ?_⟩, trivial, trivial, trivial⟩
  · intro r hr
    obtain ⟨l, a, b, -⟩ := k r hr
    exact ⟨l, a, b⟩
  · intro _; exact ⟨b0, rfl, isNonAxi_spec k1 e0⟩
  · exact isDissipative_spec k1 e1
  · exact checkC_spec (fun _ => rfl) k1 e2
  · exact checkC_spec (fun _ => rfl) k1 e3
  · intro b hb
    simp only at hb
    injection hb with hb
    subst hb
    exact checkC_spec (fun _ => rfl) k1 e4
  · intro _; simp
  · exact checkC_spec (fun _ => rfl) k1 e5

theorem getElem?_set_comp {h : Heap} {a : Ref} {c c' : Comp} (ha : h[a]? = some (.comp c)) (r : Ref) :
    (h.set a (.comp c'))[r]? = if r = a then some (.comp c') else h[r]? := by
  have hlt : a < h.length := by
    rcases Nat.lt_or_ge a h.length with k | k
    · exact k
    · rw [List.getElem?_eq_none k] at ha; exact absurd ha (by simp)
  rw [List.getElem?_set]
  by_cases hr : a = r
  · rw [if_pos hr, if_pos hlt, if_pos hr.symm]
  · rw [if_neg hr, if_neg (Ne.symm hr)]

theorem isLeaf_set {h : Heap} {a : Ref} {c c' : Comp} (ha : h[a]? = some (.comp c)) (r : Ref) (l : Leaf) :
    IsLeaf (h.set a (.comp c')) r l ↔ IsLeaf h r l := by
  unfold IsLeaf
  rw [getElem?_set_comp ha]
  by_cases hr : r = a
  · rw [if_pos hr, hr, ha]; simp
  · rw [if_neg hr]

theorem WF.set_comp {h : Heap} (w : WF h) {a : Ref} {c c' : Comp} (ha : h[a]? = some (.comp c))
    (ok : c'.OK h) : WF (h.set a (.comp c')) := by
  have ext : Ext h (h.set a (.comp c')) := fun r l k => ⟨l, (isLeaf_set ha r l).2 k, .refl l⟩
  refine ⟨fun r l k => w.leaf r l ((isLeaf_set ha r l).1 k), fun r d k => ?_⟩
  rw [getElem?_set_comp ha] at k
  by_cases hr : r = a
  · rw [if_pos hr] at k
    injection k with k
    injection k with k
    rw [← k]; exact ok.ext ext
  · rw [if_neg hr] at k
    exact (w.comp r d k).ext ext

/-- The value assigned is a single potential, or the key is a slice (which iterates over the value). -/
def okValue (h : Heap) (k : Key) (v : Val) : Prop :=
  (∃ i j, k = .slice i j) ∨ ∀ r, v = .ref r → ∀ c, h[r]? ≠ some (.comp c)

theorem pyIndex_lt {len : Nat} {k : Int} {i : Nat} (h : pyIndex len k = some i) : i < len := by
  unfold pyIndex at h
  split at h
  · split at h
    · injection h with h; omega
    · cases h
  · split at h
    · injection h with h; omega
    · cases h

theorem assign_leaf {h : Heap} (w : WF h) {a r : Ref} {c : Comp} (ha : h[a]? = some (.comp c)) {o : Obj}
    (hr : h[r]? = some o) (hd : o.dim = c.dim) {k : Key} {v : Val} (hv : v = .ref r) (ok : okValue h k v)
    {rs : List Ref} (e : assign c r o k = some rs) : ∀ s ∈ rs, ∃ l, IsLeaf h s l ∧ l.dim = c.dim := by
  have okc := w.comp a c ha
  cases k with
  | int i =>
    have hleaf : ∃ l, o = .leaf l := by
      cases o with
      | leaf l => exact ⟨l, rfl⟩
      | comp d =>
        rcases ok with ⟨i', j, q⟩ | q
        · cases q
        · exact absurd hr (q r hv d)
    obtain ⟨l, rfl⟩ := hleaf
    simp only [assign] at e
    cases hp : pyIndex c.members.length i with
    | none => rw [hp] at e; cases e
    | some m =>
      rw [hp] at e
      injection e with e
      subst e
      intro s hs
      rcases List.mem_or_eq_of_mem_set hs with q | q
      · exact okc.flat s q
      · rw [q]; exact ⟨l, hr, hd⟩
  | slice i j =>
    simp only [assign] at e
    injection e with e
    subst e
    intro s hs
    rw [List.mem_append, List.mem_append] at hs
    rcases hs with (q | q) | q
    · exact okc.flat s (List.mem_of_mem_take q)
    · cases o with
      | leaf l =>
        simp only [iterObj, List.mem_singleton] at q
        rw [q]; exact ⟨l, hr, hd⟩
      | comp d =>
        obtain ⟨l, hl, hld⟩ := (w.comp r d hr).flat s q
        exact ⟨l, hl, hld.trans hd⟩
    · exact okc.flat s (List.mem_of_mem_drop q)

/-- Item assignment with an acceptable value on a 2D or 3D combination keeps everything in order. -/
theorem setItem_wf {h : Heap} (w : WF h) {n : Nat} {a : Ref} {k : Key} {v : Val}
    (hd : ∀ c, h[a]? = some (.comp c) → c.dim ≠ 1) (ok : okValue h k v) : WF (setItem (n + 1) a k v h).2 := by
  unfold setItem
  cases ha : h[a]? with
  | none => exact w
  | some oa =>
    cases oa with
    | leaf l => exact w
    | comp c =>
      have okc := w.comp a c ha
      cases v with
      | list vs => exact w
      | junk => exact w
      | ref r =>
        simp only
        cases hr : h[r]? with
        | none => exact w
        | some o =>
          simp only
          split
          · exact w
          · rename_i hdim
            split
            · exact w
            · cases e : assign c r o k with
              | none => exact w
              | some rs =>
                simp only
                have hdim' : o.dim = c.dim := not_not.1 hdim
                have hm := assign_leaf w ha hr hdim' rfl ok e
                have hc1 := hd c ha
                have hdc : c.dim = 2 ∨ c.dim = 3 := okc.dims.resolve_left hc1
                have key : ∀ s ∈ rs, ∃ l, IsLeaf (h.set a (.comp { c with members := rs })) s l ∧
                    l.dim = c.dim ∧ l.nonAxi.isSome := by
                  intro s hs
                  obtain ⟨l, hl, hld⟩ := hm s hs
                  refine ⟨l, (isLeaf_set ha s l).2 hl, hld, ?_⟩
                  rcases w.leaf s l hl with ⟨q, -⟩ | ⟨-, q⟩
                  · exact absurd (q.symm.trans hld) (fun q' => hc1 q'.symm)
                  · exact q
                have R := recompute_ok (n := n) (c := { c with members := rs }) hdc key
                have e2 : (h.set a (.comp { c with members := rs })).set a
                    (.comp (recompute (h.set a (.comp { c with members := rs })) (n + 1)
                      { c with members := rs }).2) = h.set a
                    (.comp (recompute (h.set a (.comp { c with members := rs })) (n + 1)
                      { c with members := rs }).2) := List.set_set ..
                rw [e2]
                refine w.set_comp ha (R.2.1.ext ?_)
                exact fun s l q => ⟨l, (isLeaf_set ha s l).1 q, .refl l⟩

/-! ### Units -/

theorem setUnits_get {f : Units → Units} {h : Heap} {a : Ref} (r : Ref) :
    (setUnits f h a)[r]? = (h[r]?).map fun o => if r = a then o.mapUnits f else o := by
  unfold setUnits
  rw [List.getElem?_modify]
  by_cases hr : a = r
  · subst hr; cases h[a]? <;> simp
  · cases h[r]? <;> simp [hr, Ne.symm hr]

/-- `h'` is `h` with other units. -/
def UnitsOnly (h h' : Heap) : Prop :=
  ∀ r : Ref, ∃ f : Units → Units, h'[r]? = (h[r]?).map (Obj.mapUnits f)

theorem UnitsOnly.refl (h : Heap) : UnitsOnly h h := fun r => ⟨id, by
  cases h[r]? with
  | none => rfl
  | some o => cases o <;> rfl⟩
theorem UnitsOnly.trans {a b c : Heap} (p : UnitsOnly a b) (q : UnitsOnly b c) : UnitsOnly a c := fun r => by
  obtain ⟨f, hf⟩ := p r
  obtain ⟨g, hg⟩ := q r
  refine ⟨g ∘ f, ?_⟩
  rw [hg, hf]
  cases a[r]? with
  | none => rfl
  | some o => cases o <;> rfl
theorem UnitsOnly.setUnits (f : Units → Units) (h : Heap) (a : Ref) : UnitsOnly h (setUnits f h a) := fun r => by
  by_cases hr : r = a
  · exact ⟨f, by rw [setUnits_get]; simp [hr]⟩
  · refine ⟨id, ?_⟩
    rw [setUnits_get]
    cases h[r]? with
    | none => rfl
    | some o => cases o <;> simp [hr, Obj.mapUnits]

theorem UnitsOnly.ext {h h' : Heap} (u : UnitsOnly h h') : Ext h h' := fun r l k => by
  obtain ⟨f, hf⟩ := u r
  have k' : h[r]? = some (.leaf l) := k
  rw [k'] at hf
  exact ⟨{ l with units := f l.units }, hf, .refl _⟩

theorem UnitsOnly.wf {h h' : Heap} (u : UnitsOnly h h') (w : WF h) : WF h' where
  leaf := fun r l k => by
    obtain ⟨f, hf⟩ := u r
    have k' : h'[r]? = some (.leaf l) := k
    rw [k'] at hf
    cases hr : h[r]? with
    | none => rw [hr] at hf; cases hf
    | some o =>
      rw [hr] at hf
      cases o with
      | comp c => cases hf
      | leaf m =>
        injection hf with hf
        injection hf with hf
        have := w.leaf r m hr
        rw [hf]; exact this
  comp := fun r c k => by
    obtain ⟨f, hf⟩ := u r
    rw [k] at hf
    cases hr : h[r]? with
    | none => rw [hr] at hf; cases hf
    | some o =>
      rw [hr] at hf
      cases o with
      | leaf m => cases hf
      | comp d =>
        injection hf with hf
        injection hf with hf
        have ok := (w.comp r d hr).ext u.ext
        rw [hf]
        exact ⟨ok.dims, ok.flat, ok.nonAxi, ok.dissipative, ok.hasC, ok.hasC_dxdv, ok.hasC_dxdv3d, ok.has3d,
          ok.hasC_dens⟩

theorem physical_units (f : Units → Units) : ∀ (n : Nat) (a : Ref) (h : Heap), UnitsOnly h (physical f n a h)
  | 0, _, h => .refl h
  | n + 1, a, h => by
    rw [physical]
    cases ha : h[a]? with
    | none => exact .setUnits f h a
    | some o =>
      cases o with
      | leaf l => exact .setUnits f h a
      | comp c =>
        simp only
        have : ∀ (rs : List Ref) (g : Heap), UnitsOnly g (rs.foldl (fun h r => physical f n r h) g) := by
          intro rs
          induction rs with
          | nil => intro g; exact .refl g
          | cons r rs ih => intro g; exact (physical_units f n r g).trans (ih _)
        exact (UnitsOnly.setUnits f h a).trans (this _ _)

end Verif.Compose

import Verif.Lemmas.ComposeOps
import Verif.Lemmas.Pot.Sum

set_option autoImplicit false

/-! # Sessions, and the value of a combination -/

noncomputable section
namespace Verif.Compose

/-! ### Sessions -/

/-- Operations a session may contain. Excluded: creating objects that no class creates, and the two
kinds of item assignment for which the claims fail (see `C09_linear_fails`, `C09_nested_fails`). -/
def Safe (h : Heap) : Op → Prop
  | .new l => l.valid
  | .combine d _ => d = 1 ∨ d = 2 ∨ d = 3
  | .set a k v => (∀ c, h[a]? = some (.comp c) → c.dim ≠ 1) ∧ okValue h k v
  | _ => True

/-- The heaps reached by a session from an empty interpreter; `n + 1` is the recursion limit. -/
inductive Reachable (n : Nat) : Heap → Prop
  | start : Reachable n []
  | step {h : Heap} (op : Op) : Reachable n h → Safe h op → Reachable n (exec (n + 1) h op)

theorem exec_wf {n : Nat} {h : Heap} (w : WF h) {op : Op} (s : Safe h op) : WF (exec (n + 1) h op) := by
  cases op with
  | new l => exact w.append_leaf s
  | combine d args => exact mkComp_wf w s
  | add a b => exact add_grow w |>.wf
  | mul a b => exact mul_grow w |>.wf
  | div a b => exact div_grow w |>.wf
  | get a k => exact getItem_grow w |>.wf
  | set a k v => exact setItem_wf w s.1 s.2
  | physicalOn a ro vo => exact (physical_units _ _ a h).wf w
  | physicalOff a => exact (physical_units _ _ a h).wf w

theorem Reachable.wf {n : Nat} {h : Heap} (k : Reachable n h) : WF h := by
  induction k with
  | start => exact .nil
  | step op _ s ih => exact exec_wf ih s

/-! ### Values -/

/-- What one member contributes to method `f`: its amplitude times its method; forces without a
potential contribute to forces only. -/
def contrib (h : Heap) (f : Fn) (R z φ t : ℝ) (v : Vel) (s : Ref) : ℝ :=
  match h[s]? with
  | some (.leaf l) => if l.dissipative = true ∧ f.isForce = false then 0 else l.amp * l.meth f R z φ t v
  | _ => 0

/-- The sum over the members of an object. -/
def total (h : Heap) (f : Fn) (R z φ t : ℝ) (v : Vel) (r : Ref) : ℝ :=
  ((leavesOf h r).map (contrib h f R z φ t v)).sum

/-- The arguments suffice for every member. -/
def Enough (h : Heap) (f : Fn) (φ : Option ℝ) (v : Option Vel) (r : Ref) : Prop :=
  (φ = none → ∀ s ∈ leavesOf h r, ∀ l, IsLeaf h s l → l.nonAxi ≠ some true) ∧
    (v = none → f.isForce = true → ∀ s ∈ leavesOf h r, ∀ l, IsLeaf h s l → l.dissipative = false)

theorem leaf_call {l : Leaf} {f : Fn} {R z t : ℝ} {φ : Option ℝ} {v : Option Vel}
    (h1 : l.dissipative = true → f.isForce = true) (h2 : φ = none → l.nonAxi ≠ some true)
    (h3 : v = none → l.dissipative = false) :
    l.call f R z φ t v = .ok (l.amp * l.meth f R z (φ.getD 0) t (v.getD (0, 0, 0))) := by
  unfold Leaf.call
  have e1 : (l.dissipative && !f.isForce) = false := by
    cases hd : l.dissipative with
    | false => rfl
    | true => rw [h1 hd]; rfl
  rw [e1]
  simp only [Bool.false_eq_true, if_false]
  have e2 : φ = none → l.nonAxi.getD false = false := fun hφ => by
    cases hn : l.nonAxi with
    | none => rfl
    | some b => cases b with
      | false => rfl
      | true => exact absurd hn (h2 hφ)
  have e3 : (match v, l.dissipative with
      | none, true => (.error .typeError : Except Err ℝ)
      | _, _ => .ok (l.amp * l.meth f R z (φ.getD 0) t (v.getD (0, 0, 0)))) =
      .ok (l.amp * l.meth f R z (φ.getD 0) t (v.getD (0, 0, 0))) := by
    cases v with
    | some v => rfl
    | none => rw [h3 rfl]
  cases φ with
  | some p => exact e3
  | none => rw [e2 rfl]; exact e3

theorem contrib_leaf {h : Heap} {f : Fn} {R z φ t : ℝ} {v : Vel} {s : Ref} {l : Leaf} (k : IsLeaf h s l) :
    contrib h f R z φ t v s =
      if l.dissipative = true ∧ f.isForce = false then 0 else l.amp * l.meth f R z φ t v := by
  have k' : h[s]? = some (.leaf l) := k
  simp only [contrib, k']

theorem call_leaf {h : Heap} {f : Fn} {R z t : ℝ} {φ : Option ℝ} {v : Option Vel} {n : Nat} {s : Ref}
    {l : Leaf} (k : IsLeaf h s l) : call h f R z φ t v (n + 1) s = l.call f R z φ t v := by
  have k' : h[s]? = some (.leaf l) := k
  simp only [call, k']

/-- The members kept by a method of a combination. -/
def kept (h : Heap) (f : Fn) (s : Ref) : Bool :=
  f.isForce || !(match h[s]? with
    | some o => o.dissipative
    | none => false)

theorem kept_leaf {h : Heap} {f : Fn} {s : Ref} {l : Leaf} (k : IsLeaf h s l) :
    kept h f s = (f.isForce || !l.dissipative) := by
  have k' : h[s]? = some (.leaf l) := k
  simp only [kept, k', Obj.dissipative]

theorem sum_kept {h : Heap} {f : Fn} {R z φ t : ℝ} {v : Vel} {rs : List Ref}
    (k : ∀ s ∈ rs, ∃ l, IsLeaf h s l) :
    ((rs.filter (kept h f)).map (contrib h f R z φ t v)).sum = (rs.map (contrib h f R z φ t v)).sum := by
  induction rs with
  | nil => rfl
  | cons s rs ih =>
    obtain ⟨l, hl⟩ := k s (by simp)
    have ih' := ih fun s hs => k s (by simp [hs])
    rw [List.filter_cons]
    split
    · rw [List.map_cons, List.sum_cons, ih', List.map_cons, List.sum_cons]
    · rename_i hk
      rw [kept_leaf hl] at hk
      have : l.dissipative = true ∧ f.isForce = false := by
        cases hd : l.dissipative <;> cases hf : f.isForce <;> simp_all
      rw [ih', List.map_cons, List.sum_cons, contrib_leaf hl, if_pos this, zero_add]

/-- Evaluation of a combination. -/
theorem call_comp {h : Heap} (w : WF h) {f : Fn} {R z t : ℝ} {φ : Option ℝ} {v : Option Vel} {n : Nat}
    {r : Ref} {c : Comp} (hr : h[r]? = some (.comp c)) (en : Enough h f φ v r) :
    call h f R z φ t v (n + 2) r = .ok (total h f R z (φ.getD 0) t (v.getD (0, 0, 0)) r) := by
  have el : leavesOf h r = c.members := by simp [leavesOf, hr]
  have ok := w.comp r c hr
  have kl : ∀ s ∈ c.members, ∃ l, IsLeaf h s l := fun s hs => by
    obtain ⟨l, hl, -⟩ := ok.flat s hs; exact ⟨l, hl⟩
  have e1 : (c.members.filter (kept h f)).mapM (call h f R z φ t v (n + 1)) =
      .ok ((c.members.filter (kept h f)).map (contrib h f R z (φ.getD 0) t (v.getD (0, 0, 0)))) := by
    refine mapM_ok_of fun s hs => ?_
    obtain ⟨hm, hk⟩ := List.mem_filter.1 hs
    obtain ⟨l, hl⟩ := kl s hm
    rw [kept_leaf hl] at hk
    have hd : l.dissipative = true → f.isForce = true := by
      intro hd; rw [hd] at hk; simpa using hk
    rw [call_leaf hl, contrib_leaf hl, if_neg (fun q => by rw [hd q.1] at q; exact absurd q.2 (by simp)),
      leaf_call hd (fun q => en.1 q s (el ▸ hm) l hl)]
    intro q
    cases hf : f.isForce with
    | true => exact en.2 q hf s (el ▸ hm) l hl
    | false =>
      cases hdd : l.dissipative with
      | false => rfl
      | true => rw [hd hdd] at hf; cases hf
  rw [call]
  simp only [hr]
  have e2 : (c.members.filter (kept h f)).mapM (call h f R z φ t v (n + 1)) >>=
      (fun xs => (Except.ok xs.sum : Except Err ℝ)) = .ok (total h f R z (φ.getD 0) t (v.getD (0, 0, 0)) r) := by
    rw [e1]
    show Except.ok _ = _
    rw [sum_kept kl, total, el]
  exact e2

theorem call_single {h : Heap} {f : Fn} {R z t : ℝ} {φ : Option ℝ} {v : Option Vel} {n : Nat}
    {r : Ref} {l : Leaf} (hr : IsLeaf h r l) (hd : l.dissipative = true → f.isForce = true)
    (en : Enough h f φ v r) :
    call h f R z φ t v (n + 1) r = .ok (total h f R z (φ.getD 0) t (v.getD (0, 0, 0)) r) := by
  have hr' : h[r]? = some (.leaf l) := hr
  have el : leavesOf h r = [r] := by simp [leavesOf, hr']
  rw [call_leaf hr, leaf_call hd (fun q => en.1 q r (by simp [el]) l hr), total, el]
  · simp only [List.map_cons, List.map_nil, List.sum_cons, List.sum_nil, add_zero]
    rw [contrib_leaf hr, if_neg (fun q => by rw [hd q.1] at q; exact absurd q.2 (by simp))]
  · intro q
    cases hdd : l.dissipative with
    | false => rfl
    | true => rw [← hdd]; exact en.2 q (hd hdd) r (by simp [el]) l hr

/-! ### Values in a grown heap -/

theorem Grow.leavesOf {h h' : Heap} (g : Grow h h') {r : Ref} {o : Obj} (k : h[r]? = some o) :
    leavesOf h' r = leavesOf h r := by
  simp only [Compose.leavesOf, k, g.keep r o k]

theorem Grow.contrib {h h' : Heap} (g : Grow h h') {f : Fn} {R z φ t : ℝ} {v : Vel} {s : Ref} {o : Obj}
    (k : h[s]? = some o) : contrib h' f R z φ t v s = contrib h f R z φ t v s := by
  simp only [Compose.contrib, k, g.keep s o k]

theorem leavesOf_get {h : Heap} (w : WF h) {r : Ref} {o : Obj} (k : h[r]? = some o) :
    ∀ s ∈ leavesOf h r, ∃ l, IsLeaf h s l := by
  intro s hs
  cases o with
  | leaf l =>
    simp only [leavesOf, k, List.mem_singleton] at hs
    exact ⟨l, by rw [hs]; exact k⟩
  | comp c =>
    simp only [leavesOf, k] at hs
    obtain ⟨l, hl, -⟩ := (w.comp r c k).flat s hs
    exact ⟨l, hl⟩

theorem Grow.sum {h h' : Heap} (g : Grow h h') {f : Fn} {R z φ t : ℝ} {v : Vel} {rs : List Ref}
    (k : ∀ s ∈ rs, ∃ l, IsLeaf h s l) :
    (rs.map (Compose.contrib h' f R z φ t v)).sum = (rs.map (Compose.contrib h f R z φ t v)).sum := by
  congr 1
  refine List.map_congr_left fun s hs => ?_
  obtain ⟨l, hl⟩ := k s hs
  exact g.contrib hl

theorem Grow.total {h h' : Heap} (g : Grow h h') (w : WF h) {f : Fn} {R z φ t : ℝ} {v : Vel} {r : Ref} {o : Obj}
    (k : h[r]? = some o) : total h' f R z φ t v r = total h f R z φ t v r := by
  rw [Compose.total, Compose.total, g.leavesOf k]
  exact g.sum (leavesOf_get w k)

/-! ### The successful outcomes of the operators -/

/-- `r` is a new combination whose members are `rs`. -/
structure Result (h h' : Heap) (r : Ref) (dim : Nat) (rs : List Ref) : Prop where
  grow : Grow h h'
  made : ∃ c : Comp, h'[r]? = some (.comp c) ∧ c.members = rs ∧ c.dim = dim
  fresh : h[r]? = none

theorem Result.leaves {h h' : Heap} {r : Ref} {dim : Nat} {rs : List Ref} (m : Result h h' r dim rs) :
    leavesOf h' r = rs := by
  obtain ⟨c, hc, rfl, -⟩ := m.made
  simp only [leavesOf, hc]

theorem map_some_inj {a b : List Ref} (h : a.map some = b.map some) : a = b :=
  List.map_injective_iff.2 (Option.some_injective _) h

theorem leavesVals_append (h : Heap) (a b : List Val) :
    leavesVals h (a ++ b) = leavesVals h a ++ leavesVals h b := by
  induction a with
  | nil => rfl
  | cons x a ih => rw [List.cons_append, leavesVals, ih, leavesVals, List.append_assoc]

theorem leavesVals_refs {h : Heap} {rs : List Ref} (k : ∀ s ∈ rs, ∃ l, IsLeaf h s l) :
    leavesVals h (rs.map Val.ref) = rs.map some := by
  induction rs with
  | nil => rfl
  | cons s rs ih =>
    obtain ⟨l, hl⟩ := k s (by simp)
    have hl' : h[s]? = some (.leaf l) := hl
    rw [List.map_cons, leavesVals, ih fun s hs => k s (by simp [hs]), leavesVal]
    simp [leavesOf, hl']

theorem mkComp_result {h : Heap} (w : WF h) {n dim : Nat} {args : List Val} {r : Ref} {h' : Heap}
    (hd : dim = 1 ∨ dim = 2 ∨ dim = 3) (e : mkComp n dim args h = (.ok r, h')) {rs : List Ref}
    (k : leavesVals h args = rs.map some) : Result h h' r dim rs := by
  rcases mkComp_spec w (n := n) (args := args) hd with ⟨x, hx⟩ | ⟨r', rs', e1, e2, m, -⟩
  · rw [hx] at e; cases e
  · rw [e] at e1 m
    injection e1 with e1
    subst e1
    rw [k] at e2
    have := map_some_inj e2
    subst this
    obtain ⟨c, hc, a, b, -⟩ := m.made
    exact ⟨⟨m.wf, m.keep⟩, ⟨c, hc, a, b⟩, m.fresh⟩

theorem forall₂_imp_left {α β : Type} {P Q : α → β → Prop} {a : List α} {b : List β}
    (F : List.Forall₂ P a b) (k : ∀ x ∈ a, ∀ y, P x y → Q x y) : List.Forall₂ Q a b := by
  induction F with
  | nil => exact .nil
  | cons h F ih => exact .cons (k _ (by simp) _ h) (ih fun x hx => k x (by simp [hx]))

/-- `s'` in `h'` is the image `g l` of the single object `l` at `s` in `h`. -/
def Image (g : Leaf → Leaf) (h h' : Heap) (s s' : Ref) : Prop :=
  ∃ l, IsLeaf h s l ∧ IsLeaf h' s' (g l)

theorem mapRefs_result {g : Leaf → Leaf} {G : Ref → Heap → Except Err Ref × Heap} {Q : Leaf → Prop}
    (hG : ∀ {h : Heap} {r : Ref} {l : Leaf}, IsLeaf h r l → G r h = (.ok h.length, h ++ [.leaf (g l)]))
    (hv : ∀ {l : Leaf}, Q l → l.valid → (g l).valid) :
    ∀ (rs : List Ref) {h h' : Heap} {rs' : List Ref}, WF h → (∀ r ∈ rs, ∃ l, IsLeaf h r l ∧ Q l) →
    mapRefs G rs h = (.ok rs', h') → Grow h h' ∧ List.Forall₂ (Image g h h') rs rs'
  | [], h, h', rs', w, _, e => by
    simp only [mapRefs] at e
    injection e with e1 e2
    injection e1 with e1
    subst e1 e2
    exact ⟨.refl w, .nil⟩
  | r :: rs, h, h', rs', w, k, e => by
    rw [mapRefs] at e
    obtain ⟨l, hl, hd⟩ := k r (by simp)
    simp only [hG hl] at e
    have g1 := Grow.leaf w (hv hd (w.leaf r l hl))
    rcases hm : mapRefs G rs (h ++ [.leaf (g l)]) with ⟨(x | ys), h2⟩
    · rw [hm] at e; cases e
    · rw [hm] at e
      injection e with e1 e2
      injection e1 with e1
      subst e1 e2
      obtain ⟨g2, F⟩ := mapRefs_result hG hv rs g1.wf (fun s hs => by
        obtain ⟨m, hm, hmd⟩ := k s (by simp [hs])
        exact ⟨m, g1.keep s _ hm, hmd⟩) hm
      refine ⟨g1.trans g2, .cons ⟨l, hl, g2.keep _ _ (by simp)⟩ ?_⟩
      refine forall₂_imp_left F fun s hs y ⟨m, hm, hy⟩ => ?_
      obtain ⟨m', hm', -⟩ := k s (by simp [hs])
      have : m = m' := isLeaf_unique hm (g1.keep s _ hm')
      subst this
      exact ⟨m, hm', hy⟩

theorem image_right {g : Leaf → Leaf} {h h' : Heap} {a b : List Ref} (F : List.Forall₂ (Image g h h') a b) :
    ∀ s ∈ b, ∃ l, IsLeaf h' s l := by
  induction F with
  | nil => intro s hs; cases hs
  | cons h F ih =>
    intro s hs
    obtain ⟨l, -, hl⟩ := h
    rcases List.mem_cons.1 hs with rfl | q
    · exact ⟨_, hl⟩
    · exact ih s q

theorem image_grow {g : Leaf → Leaf} {h h' h'' : Heap} {a b : List Ref} (F : List.Forall₂ (Image g h h') a b)
    (G : Grow h' h'') : List.Forall₂ (Image g h h'') a b :=
  F.imp fun _ _ ⟨l, x, y⟩ => ⟨l, x, G.keep _ _ y⟩

theorem planarLeaf_eq {h : Heap} {r : Ref} {l : Leaf} (k : IsLeaf h r l) :
    planarLeaf r h = (.ok h.length, h ++ [.leaf l.toPlanar]) := by
  have k' : h[r]? = some (.leaf l) := k
  simp only [planarLeaf, k']

theorem mapPlanar_result {rs : List Ref} {h h' : Heap} {rs' : List Ref} (w : WF h)
    (k : ∀ r ∈ rs, ∃ l, IsLeaf h r l ∧ l.dim ≠ 1) (e : mapRefs planarLeaf rs h = (.ok rs', h')) :
    Grow h h' ∧ List.Forall₂ (Image Leaf.toPlanar h h') rs rs' :=
  mapRefs_result (g := Leaf.toPlanar) (Q := fun l => l.dim ≠ 1) (fun k => planarLeaf_eq k)
    (fun hd v => Leaf.toPlanar_valid v hd) rs w k e

theorem members_leaf {h : Heap} (w : WF h) {r : Ref} {c : Comp} (k : h[r]? = some (.comp c)) :
    ∀ s ∈ c.members, ∃ l, IsLeaf h s l := fun s hs => by
  obtain ⟨l, hl, -⟩ := (w.comp r c k).flat s hs
  exact ⟨l, hl⟩

/-- The object at `r` has dimension `dim`. -/
def HasDim (h : Heap) (r : Ref) (dim : Nat) : Prop := ∃ o, h[r]? = some o ∧ o.dim = dim

theorem toPlanar_result {n : Nat} {r r' : Ref} {h h' : Heap} (w : WF h) {o : Obj} (hr : h[r]? = some o)
    (hd : o.dim ≠ 1) (e : toPlanar n r h = (.ok r', h')) :
    Grow h h' ∧ List.Forall₂ (Image Leaf.toPlanar h h') (leavesOf h r) (leavesOf h' r') ∧
      HasDim h' r' 2 := by
  unfold toPlanar at e
  rw [hr] at e
  cases o with
  | leaf l =>
    injection e with e1 e2
    injection e1 with e1
    subst e1 e2
    have g := Grow.leaf w (Leaf.toPlanar_valid (w.leaf r l hr) hd)
    refine ⟨g, ?_, ⟨.leaf l.toPlanar, by simp, rfl⟩⟩
    simp only [leavesOf, hr]
    simp only [List.getElem?_append_right (Nat.le_refl h.length), Nat.sub_self, List.getElem?_cons_zero]
    exact .cons ⟨l, hr, by simp [IsLeaf]⟩ .nil
  | comp c =>
    simp only at e
    rcases hm : mapRefs planarLeaf c.members h with ⟨(x | rs), h1⟩
    · rw [hm] at e; cases e
    · rw [hm] at e
      obtain ⟨g, F⟩ := mapPlanar_result w (fun s hs => by
        obtain ⟨l, hl, hld⟩ := (w.comp r c hr).flat s hs
        exact ⟨l, hl, by rw [hld]; exact hd⟩) hm
      have m := mkComp_result g.wf (by simp) e (leavesVals_refs (image_right F))
      refine ⟨g.trans m.grow, ?_, ?_⟩
      · rw [m.leaves]
        simp only [leavesOf, hr]
        exact image_grow F m.grow
      · obtain ⟨c', hc, -, hd'⟩ := m.made
        exact ⟨_, hc, hd'⟩

/-- How an operand enters a sum of dimension `dim`: as its own members, or, when it is 3D and the sum
2D, as their planar images. -/
def Operand (h h' : Heap) (dim : Nat) (r : Ref) (ps : List Ref) : Prop :=
  (HasDim h r dim ∧ ps = leavesOf h r) ∨
    (HasDim h r 3 ∧ dim = 2 ∧ List.Forall₂ (Image Leaf.toPlanar h h') (leavesOf h r) ps)

theorem Operand.grow {h h' h'' : Heap} {dim : Nat} {r : Ref} {ps : List Ref} (k : Operand h h' dim r ps)
    (g : Grow h' h'') : Operand h h'' dim r ps := by
  rcases k with k | ⟨a, b, F⟩
  · exact .inl k
  · exact .inr ⟨a, b, image_grow F g⟩

theorem leavesVals_two {h : Heap} {a b : Ref} :
    leavesVals h [.ref a, .ref b] = (leavesOf h a ++ leavesOf h b).map some := by
  simp [leavesVals, leavesVal]

theorem leavesVals_snoc {h : Heap} {rs : List Ref} (k : ∀ s ∈ rs, ∃ l, IsLeaf h s l) {b : Ref} :
    leavesVals h (rs.map Val.ref ++ [.ref b]) = (rs ++ leavesOf h b).map some := by
  rw [leavesVals_append, leavesVals_refs k, List.map_append]
  simp [leavesVals, leavesVal]

theorem headDim_ref {h : Heap} {n : Nat} {b : Ref} {hd : Option Nat} (w : WF h) {o : Obj}
    (hb : h[b]? = some o) (e : headDim h n (.ref b) = .ok hd) : hd = some o.dim := by
  unfold headDim at e
  rw [flattenVal] at e
  cases hf : flattenRef h n b with
  | error x => rw [hf] at e; cases e
  | ok rs =>
    rw [hf] at e
    obtain ⟨k1, k2⟩ := flattenRef_ok w hf
    cases rs with
    | nil => cases e
    | cons s rs =>
      obtain ⟨l, hl⟩ := k2 s (by simp)
      have hl' : h[s]? = some (.leaf l) := hl
      simp only [Except.map, List.map_cons, hl', Option.map_some] at e
      injection e with e
      rw [← e]
      cases o with
      | leaf m =>
        simp only [leavesOf, hb] at k1
        have hs : s = b := by
          have := congrArg List.head? k1
          simpa using this
        rw [hs, hb] at hl'
        injection hl' with hl'
        rw [← hl']
      | comp c =>
        simp only [leavesOf, hb] at k1
        obtain ⟨m, hm, hmd⟩ := (w.comp b c hb).flat s (by rw [← k1]; simp)
        rw [isLeaf_unique hl hm]
        exact congrArg some hmd

theorem add_result {n : Nat} {a b r : Ref} {h h' : Heap} (w : WF h)
    (e : add n a (.ref b) h = (.ok r, h')) :
    ∃ dim pa pb, Operand h h' dim a pa ∧ Operand h h' dim b pb ∧ Grow h h' ∧ leavesOf h' r = pa ++ pb ∧
      HasDim h' r dim ∧ (HasDim h a dim ∨ HasDim h b dim) := by
  have fin : ∀ {h1 : Heap} {dim : Nat} {args : List Val} {pa pb : List Ref}, Grow h h1 →
      mkComp n dim args h1 = (.ok r, h') → (dim = 1 ∨ dim = 2 ∨ dim = 3) →
      leavesVals h1 args = (pa ++ pb).map some → Operand h h1 dim a pa → Operand h h1 dim b pb → (HasDim h a dim ∨ HasDim h b dim) →
      ∃ dim pa pb, Operand h h' dim a pa ∧ Operand h h' dim b pb ∧ Grow h h' ∧ leavesOf h' r = pa ++ pb ∧
      HasDim h' r dim ∧ (HasDim h a dim ∨ HasDim h b dim) := by
    intro h1 dim args pa pb g e hd k oa ob hx
    have m := mkComp_result g.wf hd e k
    obtain ⟨c, hc, -, hcd⟩ := m.made
    exact ⟨dim, pa, pb, oa.grow m.grow, ob.grow m.grow, g.trans m.grow, m.leaves, ⟨_, hc, hcd⟩, hx⟩
  unfold add at e
  cases ha : h[a]? with
  | none => rw [ha] at e; cases e
  | some o =>
    rw [ha] at e
    cases o with
    | leaf l =>
      simp only at e
      cases hbd : headDim h n (.ref b) with
      | error x => rw [hbd] at e; cases e
      | ok hd =>
        rw [hbd] at e
        simp only at e
        cases hb : h[b]? with
        | none =>
          unfold headDim at hbd
          rw [flattenVal] at hbd
          cases n with
          | zero => simp only [flattenRef] at hbd; cases hbd
          | succ n => simp only [flattenRef, hb] at hbd; cases hbd
        | some ob =>
          have q := headDim_ref w hb hbd
          subst q
          have vd : valDim h (.ref b) = some ob.dim := by simp [valDim, hb]
          have da : l.dim = 1 ∨ l.dim = 2 ∨ l.dim = 3 := leaf_dims w ha
          by_cases h1 : l.dim = 1
          · rw [if_pos h1] at e
            split at e
            · cases e
            · rename_i h2
              split at e
              · cases e
              · have h2' : ob.dim = 1 := by simpa using h2
                exact fin (.refl w) e (by simp) leavesVals_two (.inl ⟨⟨_, ha, h1⟩, rfl⟩)
                  (.inl ⟨⟨_, hb, h2'⟩, rfl⟩) (.inl ⟨_, ha, h1⟩)
          · rw [if_neg h1] at e
            split at e
            · cases e
            · rename_i h2
              have h2' : ob.dim = 3 ∨ ob.dim = 2 := by simpa using not_not.1 h2
              split at e
              · rename_i h3
                split at e
                · rename_i h4
                  rw [vd] at h4
                  have h4' : ob.dim = 3 := by simpa using h4
                  rcases hm : toPlanar n b h with ⟨(x | r'), h1⟩
                  · rw [hm] at e; cases e
                  · rw [hm] at e
                    obtain ⟨g, F, -⟩ := toPlanar_result w hb (by omega) hm
                    refine fin g e (by simp) leavesVals_two ?_ (.inr ⟨⟨_, hb, h4'⟩, rfl, F⟩) (.inl ⟨_, ha, h3⟩)
                    exact .inl ⟨⟨_, ha, h3⟩, g.leavesOf ha⟩
                · rename_i h4
                  rw [vd] at h4
                  have h4' : ob.dim ≠ 3 := by simpa using h4
                  exact fin (.refl w) e (by simp) leavesVals_two (.inl ⟨⟨_, ha, h3⟩, rfl⟩)
                    (.inl ⟨⟨_, hb, h2'.resolve_left h4'⟩, rfl⟩) (.inl ⟨_, ha, h3⟩)
              · rename_i h3
                have h3' : l.dim = 3 := by omega
                split at e
                · cases e
                · split at e
                  · rename_i h4
                    rw [vd] at h4
                    have h4' : ob.dim = 2 := by simpa using h4
                    rcases hm : toPlanar n a h with ⟨(x | r'), h1⟩
                    · rw [hm] at e; cases e
                    · rw [hm] at e
                      obtain ⟨g, F, -⟩ := toPlanar_result w ha (show l.dim ≠ 1 by omega) hm
                      exact fin g e (by simp) leavesVals_two (.inr ⟨⟨_, ha, h3'⟩, rfl, F⟩)
                        (.inl ⟨⟨_, hb, h4'⟩, g.leavesOf hb⟩) (.inr ⟨_, hb, h4'⟩)
                  · rename_i h4
                    rw [vd] at h4
                    have h4' : ob.dim ≠ 2 := by simpa using h4
                    exact fin (.refl w) e (by simp) leavesVals_two (.inl ⟨⟨_, ha, h3'⟩, rfl⟩)
                      (.inl ⟨⟨_, hb, h2'.resolve_right h4'⟩, rfl⟩) (.inl ⟨_, ha, h3'⟩)
    | comp c =>
      simp only at e
      have el : leavesOf h a = c.members := by simp [leavesOf, ha]
      have ml := members_leaf w ha
      cases hb : h[b]? with
      | none => rw [hb] at e; cases e
      | some ob =>
        rw [hb] at e
        simp only at e
        have dc := (w.comp a c ha).dims
        have db := obj_dims w hb
        split at e
        · cases e
        · rename_i h1
          split at e
          · cases e
          · split at e
            · rename_i h3
              rcases hm : mapRefs planarLeaf c.members h with ⟨(x | rs), h1⟩
              · rw [hm] at e; cases e
              · rw [hm] at e
                obtain ⟨g, F⟩ := mapPlanar_result w (fun s hs => by
                  obtain ⟨l, hl, hld⟩ := (w.comp a c ha).flat s hs
                  exact ⟨l, hl, by omega⟩) hm
                refine fin g e (by simp) (leavesVals_snoc (image_right F)) (.inr ⟨⟨_, ha, h3.1⟩, rfl, ?_⟩)
                  (.inl ⟨⟨_, hb, h3.2⟩, g.leavesOf hb⟩) (.inr ⟨_, hb, h3.2⟩)
                rw [el]; exact F
            · rename_i h3
              split at e
              · rename_i h4
                rcases hm : toPlanar n b h with ⟨(x | r'), h1⟩
                · rw [hm] at e; cases e
                · rw [hm] at e
                  obtain ⟨g, F, -⟩ := toPlanar_result w hb (by omega) hm
                  refine fin g e (by simp) (leavesVals_snoc ?_) (.inl ⟨⟨_, ha, h4.1⟩, el.symm⟩)
                    (.inr ⟨⟨_, hb, h4.2⟩, rfl, F⟩) (.inl ⟨_, ha, h4.1⟩)
                  intro s hs
                  obtain ⟨l, hl⟩ := ml s hs
                  exact ⟨l, g.keep s _ hl⟩
              · rename_i h4
                have hd : ob.dim = c.dim := by omega
                cases ob with
                | leaf l =>
                  exact fin (.refl w) e dc (leavesVals_snoc ml) (.inl ⟨⟨_, ha, rfl⟩, el.symm⟩)
                    (.inl ⟨⟨_, hb, hd⟩, rfl⟩) (.inl ⟨_, ha, rfl⟩)
                | comp d =>
                  have el' : leavesOf h b = d.members := by simp [leavesOf, hb]
                  refine fin (.refl w) e dc ?_ (.inl ⟨⟨_, ha, rfl⟩, el.symm⟩) (.inl ⟨⟨_, hb, hd⟩, el'.symm⟩)
                    (.inl ⟨_, ha, rfl⟩)
                  rw [leavesVals_append, leavesVals_refs ml, leavesVals_refs (members_leaf w hb), List.map_append]

theorem mulRef_leaf {N n : Nat} {b : ℝ} {a : Ref} {h : Heap} {l : Leaf} (k : IsLeaf h a l) :
    mulRef N b (n + 1) a h = (.ok h.length, h ++ [.leaf (l.mul b)]) := by
  have k' : h[a]? = some (.leaf l) := k
  simp only [mulRef, k']

theorem mulRef_result {N n : Nat} {b : ℝ} {a r : Ref} {h h' : Heap} (w : WF h)
    (e : mulRef N b n a h = (.ok r, h')) :
    Grow h h' ∧ List.Forall₂ (Image (Leaf.mul · b) h h') (leavesOf h a) (leavesOf h' r) ∧ h[r]? = none ∧
      ∀ dim, HasDim h a dim → HasDim h' r dim := by
  cases n with
  | zero => simp only [mulRef] at e; cases e
  | succ n =>
    rw [mulRef] at e
    cases ha : h[a]? with
    | none => rw [ha] at e; cases e
    | some o =>
      rw [ha] at e
      cases o with
      | leaf l =>
        injection e with e1 e2
        injection e1 with e1
        subst e1 e2
        have g := Grow.leaf w (Leaf.mul_valid (w.leaf a l ha) b)
        refine ⟨g, ?_, by simp, ?_⟩
        · simp only [leavesOf, ha]
          simp only [List.getElem?_append_right (Nat.le_refl h.length), Nat.sub_self, List.getElem?_cons_zero]
          exact .cons ⟨l, ha, by simp [IsLeaf]⟩ .nil
        · rintro dim ⟨o, ho, hd⟩
          rw [ha] at ho
          injection ho with ho
          subst ho
          exact ⟨.leaf (l.mul b), by simp, hd⟩
      | comp c =>
        simp only at e
        rcases hm : mapRefs (mulRef N b n) c.members h with ⟨(x | rs), h1⟩
        · rw [hm] at e; cases e
        · rw [hm] at e
          have R : Grow h h1 ∧ List.Forall₂ (Image (Leaf.mul · b) h h1) c.members rs := by
            cases n with
            | zero =>
              cases hc : c.members with
              | nil =>
                rw [hc, mapRefs] at hm
                injection hm with e1 e2
                injection e1 with e1
                subst e1 e2
                exact ⟨.refl w, .nil⟩
              | cons s ss =>
                rw [hc, mapRefs] at hm
                simp only [mulRef] at hm
                cases hm
            | succ n =>
              exact mapRefs_result (g := (Leaf.mul · b)) (Q := fun _ => True) (fun k => mulRef_leaf k)
                (fun _ v => Leaf.mul_valid v b) c.members w (fun s hs => by
                obtain ⟨l, hl⟩ := members_leaf w ha s hs
                exact ⟨l, hl, trivial⟩) hm
          obtain ⟨g, F⟩ := R
          have m := mkComp_result g.wf (w.comp a c ha).dims e (leavesVals_refs (image_right F))
          refine ⟨g.trans m.grow, ?_, ?_, ?_⟩
          · rw [m.leaves]
            simp only [leavesOf, ha]
            exact image_grow F m.grow
          · cases hr : h[r]? with
            | none => rfl
            | some o => rw [← m.fresh, g.keep r o hr]
          · rintro dim ⟨o, ho, hd⟩
            rw [ha] at ho
            injection ho with ho
            subst ho
            obtain ⟨c', hc, -, hd'⟩ := m.made
            exact ⟨_, hc, hd'.trans hd⟩

/-! ### Success -/

theorem flattenVals_refs {h : Heap} {n : Nat} {rs : List Ref} (k : ∀ r ∈ rs, ∃ l, IsLeaf h r l) :
    flattenVals h (n + 1) (rs.map Val.ref) = .ok (rs.map some) := by
  induction rs with
  | nil => rfl
  | cons r rs ih =>
    obtain ⟨l, hl⟩ := k r (by simp)
    rw [List.map_cons, flattenVals, flattenVal, flattenRef_leaf hl, ih fun s hs => k s (by simp [hs])]
    rfl

theorem mapM_some {rs : List Ref} : (rs.map some).mapM (id : Option Ref → Option Ref) = some rs := by
  induction rs with
  | nil => rfl
  | cons r rs ih => rw [List.map_cons, List.mapM_cons, ih]; rfl

theorem mkFlags_total {h : Heap} (w : WF h) {n dim : Nat} {rs : List Ref}
    (k : ∀ r ∈ rs, ∃ l, IsLeaf h r l ∧ l.dim = dim) : ∃ c, mkFlags h (n + 1) dim rs = .ok c := by
  have k1 : ∀ r ∈ rs, ∃ l, IsLeaf h r l := fun r hr => by
    obtain ⟨l, hl, -⟩ := k r hr; exact ⟨l, hl⟩
  have e1 : ∃ b, initDissipative h (n + 1) dim rs = .ok b := by
    unfold initDissipative
    split
    · exact ⟨_, rfl⟩
    · exact isDissipative_total k1
  have e2 : ∃ b, initNonAxi h dim rs = .ok b := by
    unfold initNonAxi
    split
    · exact ⟨_, rfl⟩
    · rename_i h1
      obtain ⟨b, e⟩ := isNonAxi_total (h := h) (rs := rs) fun r hr => by
        obtain ⟨l, hl, hd⟩ := k r hr
        refine ⟨l, hl, ?_⟩
        rcases w.leaf r l hl with ⟨q, -⟩ | ⟨-, q⟩
        · exact absurd (hd ▸ q) h1
        · exact q
      exact ⟨some b, by rw [e]; rfl⟩
  have e3 : ∃ b, initC3d h (n + 1) dim rs = .ok b := by
    unfold initC3d
    split
    · obtain ⟨b, e⟩ := checkC_total (n := n) (f := Obj.hasC_dxdv3d) k1
      exact ⟨some b, by rw [e]; rfl⟩
    · exact ⟨_, rfl⟩
  obtain ⟨b1, e1⟩ := e1
  obtain ⟨b2, e2⟩ := e2
  obtain ⟨b3, e3⟩ := e3
  obtain ⟨b4, e4⟩ := checkC_total (n := n) (f := Obj.hasC) k1
  obtain ⟨b5, e5⟩ := checkC_total (n := n) (f := Obj.hasC_dxdv) k1
  obtain ⟨b6, e6⟩ := checkC_total (n := n) (f := Obj.hasC_dens) k1
  unfold mkFlags
  rw [e1, e2, e3, e4, e5, e6]
  exact ⟨_, rfl⟩

/-- Construction from single objects of one dimension and compatible units succeeds. -/
theorem mkComp_total {h : Heap} (w : WF h) {n dim : Nat} {rs : List Ref}
    (hd : dim = 1 ∨ dim = 2 ∨ dim = 3) (k : ∀ r ∈ rs, ∃ l, IsLeaf h r l ∧ l.dim = dim)
    (cp : allCompatible h rs) :
    ∃ c : Comp, mkComp (n + 1) dim (rs.map Val.ref) h = (.ok h.length, h ++ [.comp c]) ∧ c.members = rs ∧
      c.dim = dim ∧ c.units = firstUnits h rs := by
  have k1 : ∀ r ∈ rs, ∃ l, IsLeaf h r l := fun r hr => by
    obtain ⟨l, hl, -⟩ := k r hr; exact ⟨l, hl⟩
  obtain ⟨c, e⟩ := mkFlags_total w (n := n) k
  refine ⟨c, ?_, (mkFlags_ok w hd k e).2⟩
  unfold mkComp
  rw [flattenVals_refs k1]
  simp only [mapM_some]
  rw [if_neg, if_neg (not_not.2 cp), e]
  rintro ⟨r, hr, q⟩
  obtain ⟨l, hl, hld⟩ := k r hr
  exact q _ hl hld

theorem headDim_leaf {h : Heap} {n : Nat} {b : Ref} {l : Leaf} (k : IsLeaf h b l) :
    headDim h (n + 1) (.ref b) = .ok (some l.dim) := by
  have k' : h[b]? = some (.leaf l) := k
  unfold headDim
  rw [flattenVal, flattenRef_leaf k]
  simp only [Except.map, List.map_cons, List.map_nil, k', Option.map_some]
  rfl

/-- Adding two single objects of one dimension and compatible units succeeds. -/
theorem add_total {h : Heap} (w : WF h) {n : Nat} {a b : Ref} {l l' : Leaf} (ha : IsLeaf h a l)
    (hb : IsLeaf h b l') (hd : l.dim = l'.dim) (cp : compatible l.units l'.units) :
    ∃ c : Comp, add (n + 1) a (.ref b) h = (.ok h.length, h ++ [.comp c]) ∧ c.members = [a, b] ∧
      c.dim = l.dim ∧ c.units = l.units := by
  have ha' : h[a]? = some (.leaf l) := ha
  have hb' : h[b]? = some (.leaf l') := hb
  have dims := leaf_dims w ha
  obtain ⟨c, e, hc, hcd, hu⟩ := mkComp_total w (n := n) (dim := l.dim) (rs := [a, b]) dims
    (by
      intro r hr
      simp only [List.mem_cons, List.not_mem_nil, or_false] at hr
      rcases hr with rfl | rfl
      · exact ⟨l, ha, rfl⟩
      · exact ⟨l', hb, hd.symm⟩)
    (by
      intro s hs o p ho hp
      simp only [List.mem_singleton] at hs
      subst hs
      rw [ha'] at ho
      rw [hb'] at hp
      injection ho with ho
      injection hp with hp
      subst ho hp
      exact cp)
  refine ⟨c, ?_, hc, hcd, by rw [hu]; simp only [firstUnits, ha']; rfl⟩
  rw [← e]
  unfold add
  rw [ha']
  simp only [headDim_leaf hb, valDim, hb', Option.map_some, Obj.dim]
  have cp' : ∀ u, valUnits h (n + 1) (.ref b) = some u → compatible l.units u := by
    intro u hu
    simp only [valUnits, hb', Option.map_some] at hu
    injection hu with hu
    rw [← hu]; exact cp
  rcases dims with q | q | q
  · rw [if_pos q, if_neg (by rw [← hd, q]; simp), if_neg (not_not.2 cp'), q]; rfl
  · rw [if_neg (by omega), if_neg (by rw [← hd, q]; simp), if_pos q, if_neg (by rw [← hd, q]; simp), q]; rfl
  · rw [if_neg (by omega), if_neg (by rw [← hd, q]; simp), if_neg (by omega), if_neg (not_not.2 cp'),
      if_neg (by rw [← hd, q]; simp), q]; rfl

/-! ### Contributions of images -/

theorem sum_image {g : Leaf → Leaf} {h h' : Heap} {f : Fn} {R z φ t R' z' φ' t' k : ℝ} {v v' : Vel}
    (hg : ∀ l : Leaf, (g l).dissipative = l.dissipative ∧
      (g l).amp * (g l).meth f R' z' φ' t' v' = k * (l.amp * l.meth f R z φ t v)) {a b : List Ref}
    (F : List.Forall₂ (Image g h h') a b) :
    (b.map (contrib h' f R' z' φ' t' v')).sum = k * (a.map (contrib h f R z φ t v)).sum := by
  induction F with
  | nil => simp
  | cons x F ih =>
    obtain ⟨l, hl, hl'⟩ := x
    rw [List.map_cons, List.sum_cons, List.map_cons, List.sum_cons, ih, contrib_leaf hl, contrib_leaf hl',
      (hg l).1]
    split
    · ring
    · rw [(hg l).2]; ring

end Verif.Compose

import Verif.Model.Compose

set_option autoImplicit false

noncomputable section
namespace Verif.Compose

/-! ### `mapM` in `Except` -/

theorem mapM_ok_cons {α β ε : Type} {f : α → Except ε β} {a : α} {l : List α} {ys : List β}
    (h : (a :: l).mapM f = .ok ys) : ∃ y ys', f a = .ok y ∧ l.mapM f = .ok ys' ∧ ys = y :: ys' := by
  rw [List.mapM_cons] at h
  cases hf : f a with
  | error e => rw [hf] at h; exact absurd h (by intro h; cases h)
  | ok y =>
    cases hl : l.mapM f with
    | error e => rw [hf, hl] at h; exact absurd h (by intro h; cases h)
    | ok ys' =>
      rw [hf, hl] at h
      refine ⟨y, ys', rfl, rfl, ?_⟩
      have : Except.ok (y :: ys') = (Except.ok ys : Except ε (List β)) := h
      injection this with this
      exact this.symm

theorem mapM_ok_nil {α β ε : Type} {f : α → Except ε β} {ys : List β}
    (h : ([] : List α).mapM f = .ok ys) : ys = [] := by
  rw [List.mapM_nil] at h
  have : Except.ok [] = (Except.ok ys : Except ε (List β)) := h
  injection this with this
  exact this.symm

theorem mapM_ok_of {α β ε : Type} {f : α → Except ε β} {g : α → β} {l : List α}
    (h : ∀ a ∈ l, f a = .ok (g a)) : l.mapM f = .ok (l.map g) := by
  induction l with
  | nil => rw [List.mapM_nil]; rfl
  | cons a l ih =>
    rw [List.mapM_cons, h a (by simp), ih (fun b hb => h b (by simp [hb]))]; rfl

theorem bind_ok {α β ε : Type} {x : Except ε α} {f : α → Except ε β} {b : β}
    (h : (x >>= f) = .ok b) : ∃ a, x = .ok a ∧ f a = .ok b := by
  cases x with
  | error e => exact absurd h (by intro h; cases h)
  | ok a => exact ⟨a, rfl, h⟩

theorem map_ok {α β ε : Type} {x : Except ε α} {f : α → β} {b : β}
    (h : x.map f = .ok b) : ∃ a, x = .ok a ∧ f a = b := by
  cases x with
  | error e => exact absurd h (by intro h; cases h)
  | ok a =>
    refine ⟨a, rfl, ?_⟩
    have : Except.ok (f a) = (Except.ok b : Except ε β) := h
    injection this

/-! ### Specification of a well-formed session state -/

/-- The object at `r` is the single potential `l`. -/
def IsLeaf (h : Heap) (r : Ref) (l : Leaf) : Prop := h[r]? = some (.leaf l)

/-- Flatness, homogeneity and flags of a combination, in terms of its members. -/
structure Comp.OK (h : Heap) (c : Comp) : Prop where
  dims : c.dim = 1 ∨ c.dim = 2 ∨ c.dim = 3
  flat : ∀ r ∈ c.members, ∃ l, IsLeaf h r l ∧ l.dim = c.dim
  nonAxi : c.dim ≠ 1 →
    ∃ b, c.nonAxi = some b ∧ (b = true ↔ ∃ r ∈ c.members, ∃ l, IsLeaf h r l ∧ l.nonAxi = some true)
  dissipative : c.dissipative = true ↔ ∃ r ∈ c.members, ∃ l, IsLeaf h r l ∧ l.dissipative = true
  hasC : c.hasC = true ↔ ∀ r ∈ c.members, ∃ l, IsLeaf h r l ∧ l.hasC = true
  hasC_dxdv : c.hasC_dxdv = true ↔ ∀ r ∈ c.members, ∃ l, IsLeaf h r l ∧ l.hasC_dxdv = true
  hasC_dxdv3d : ∀ b, c.hasC_dxdv3d = some b →
    (b = true ↔ ∀ r ∈ c.members, ∃ l, IsLeaf h r l ∧ l.hasC_dxdv3d = true)
  has3d : c.dim = 3 → c.hasC_dxdv3d ≠ none
  hasC_dens : c.hasC_dens = true ↔ ∀ r ∈ c.members, ∃ l, IsLeaf h r l ∧ l.hasC_dens = true

/-- Every object is in order. -/
structure WF (h : Heap) : Prop where
  leaf : ∀ (r : Ref) l, IsLeaf h r l → l.valid
  comp : ∀ (r : Ref) c, h[r]? = some (.comp c) → c.OK h

theorem WF.nil : WF [] := ⟨fun r l h => by simp [IsLeaf] at h, fun r c h => by simp at h⟩

/-- Attributes of an object other than its amplitude, units and methods. -/
def Leaf.same (l l' : Leaf) : Prop :=
  l.dim = l'.dim ∧ l.nonAxi = l'.nonAxi ∧ l.dissipative = l'.dissipative ∧ l.hasC = l'.hasC ∧
    l.hasC_dxdv = l'.hasC_dxdv ∧ l.hasC_dxdv3d = l'.hasC_dxdv3d ∧ l.hasC_dens = l'.hasC_dens

theorem Leaf.same.valid {l l' : Leaf} (s : l.same l') (h : l.valid) : l'.valid := by
  obtain ⟨a, b, c, -⟩ := s
  unfold Leaf.valid at *
  rwa [← a, ← b, ← c]

/-- `h'` keeps the leaves of `h` with their attributes. -/
def Ext (h h' : Heap) : Prop := ∀ (r : Ref) l, IsLeaf h r l → ∃ l', IsLeaf h' r l' ∧ l.same l'

theorem Comp.OK.ext {h h' : Heap} {c : Comp} (k : c.OK h) (e : Ext h h') : c.OK h' := by
  have key : ∀ r ∈ c.members, ∃ l l', IsLeaf h r l ∧ IsLeaf h' r l' ∧ l.same l' := fun r hr => by
    obtain ⟨l, hl, -⟩ := k.flat r hr
    obtain ⟨l', hl', s⟩ := e r l hl
    exact ⟨l, l', hl, hl', s⟩
  have uniq : ∀ {h : Heap} {r l l'}, IsLeaf h r l → IsLeaf h r l' → l = l' := by
    intro h r l l' a b
    unfold IsLeaf at a b
    rw [a] at b
    injection b with b; injection b
  have tr : ∀ (P : Leaf → Prop), (∀ l l', l.same l' → (P l ↔ P l')) → ∀ r ∈ c.members,
      ((∃ l, IsLeaf h r l ∧ P l) ↔ ∃ l, IsLeaf h' r l ∧ P l) := by
    intro P hP r hr
    obtain ⟨l, l', a, b, s⟩ := key r hr
    constructor
    · rintro ⟨m, hm, p⟩
      rw [← uniq a hm] at p
      exact ⟨l', b, (hP _ _ s).1 p⟩
    · rintro ⟨m, hm, p⟩
      rw [← uniq b hm] at p
      exact ⟨l, a, (hP _ _ s).2 p⟩
  have trE : ∀ (P : Leaf → Prop), (∀ l l', l.same l' → (P l ↔ P l')) →
      ((∃ r ∈ c.members, ∃ l, IsLeaf h r l ∧ P l) ↔ ∃ r ∈ c.members, ∃ l, IsLeaf h' r l ∧ P l) :=
    fun P hP => exists_congr fun r => and_congr_right fun hr => tr P hP r hr
  have trA : ∀ (P : Leaf → Prop), (∀ l l', l.same l' → (P l ↔ P l')) →
      ((∀ r ∈ c.members, ∃ l, IsLeaf h r l ∧ P l) ↔ ∀ r ∈ c.members, ∃ l, IsLeaf h' r l ∧ P l) :=
    fun P hP => forall_congr' fun r => imp_congr_right fun hr => tr P hP r hr
  refine ⟨k.dims, ?_, ?_, ?_, ?_, ?_, ?_, k.has3d, ?_⟩
  · exact (trA (fun l => l.dim = c.dim) fun l l' s => by rw [s.1]).1 k.flat
  · intro hd
    obtain ⟨b, hb, i⟩ := k.nonAxi hd
    exact ⟨b, hb, i.trans (trE (fun l => l.nonAxi = some true) fun l l' s => by rw [s.2.1])⟩
  · exact k.dissipative.trans (trE (fun l => l.dissipative = true) fun l l' s => by rw [s.2.2.1])
  · exact k.hasC.trans (trA (fun l => l.hasC = true) fun l l' s => by rw [s.2.2.2.1])
  · exact k.hasC_dxdv.trans (trA (fun l => l.hasC_dxdv = true) fun l l' s => by rw [s.2.2.2.2.1])
  · intro b hb
    exact (k.hasC_dxdv3d b hb).trans
      (trA (fun l => l.hasC_dxdv3d = true) fun l l' s => by rw [s.2.2.2.2.2.1])
  · exact k.hasC_dens.trans (trA (fun l => l.hasC_dens = true) fun l l' s => by rw [s.2.2.2.2.2.2])

theorem isLeaf_unique {h : Heap} {r : Ref} {l l' : Leaf} (a : IsLeaf h r l) (b : IsLeaf h r l') : l = l' := by
  unfold IsLeaf at a b
  rw [a] at b
  injection b with b; injection b

theorem Leaf.same.refl (l : Leaf) : l.same l := ⟨rfl, rfl, rfl, rfl, rfl, rfl, rfl⟩
theorem Leaf.same.trans {a b c : Leaf} (p : a.same b) (q : b.same c) : a.same c := by
  obtain ⟨p1, p2, p3, p4, p5, p6, p7⟩ := p
  obtain ⟨q1, q2, q3, q4, q5, q6, q7⟩ := q
  exact ⟨p1.trans q1, p2.trans q2, p3.trans q3, p4.trans q4, p5.trans q5, p6.trans q6, p7.trans q7⟩
theorem Ext.refl (h : Heap) : Ext h h := fun _ l k => ⟨l, k, .refl l⟩
theorem Ext.trans {a b c : Heap} (p : Ext a b) (q : Ext b c) : Ext a c := fun r l k => by
  obtain ⟨l', k', s⟩ := p r l k
  obtain ⟨l'', k'', s'⟩ := q r l' k'
  exact ⟨l'', k'', s.trans s'⟩

theorem getElem?_append_some {h : Heap} {r : Ref} {o x : Obj} (k : h[r]? = some o) :
    (h ++ [x])[r]? = some o := by
  have : r < h.length := by
    rcases Nat.lt_or_ge r h.length with a | a
    · exact a
    · rw [List.getElem?_eq_none a] at k; exact absurd k (by simp)
  rw [List.getElem?_append_left this, k]

theorem getElem?_append_new {h : Heap} {r : Ref} {o x : Obj} (k : (h ++ [x])[r]? = some o) :
    h[r]? = some o ∨ (r = h.length ∧ o = x) := by
  rcases Nat.lt_trichotomy r h.length with a | a | a
  · left; rwa [List.getElem?_append_left a] at k
  · right
    subst a
    simp at k
    exact ⟨rfl, k.symm⟩
  · rw [List.getElem?_append_right a.le] at k
    have : r - h.length ≠ 0 := Nat.sub_ne_zero_of_lt a
    cases hh : r - h.length with
    | zero => exact absurd hh this
    | succ m => rw [hh] at k; simp at k

theorem Ext.append (h : Heap) (x : Obj) : Ext h (h ++ [x]) :=
  fun _ l k => ⟨l, getElem?_append_some k, .refl l⟩

theorem WF.append_leaf {h : Heap} (w : WF h) {l : Leaf} (v : l.valid) : WF (h ++ [.leaf l]) where
  leaf := fun r m k => by
    rcases getElem?_append_new k with k | ⟨-, k⟩
    · exact w.leaf r m k
    · injection k with k; rw [k]; exact v
  comp := fun r c k => by
    rcases getElem?_append_new k with k | ⟨-, k⟩
    · exact (w.comp r c k).ext (.append h _)
    · exact absurd k (by simp)

theorem WF.append_comp {h : Heap} (w : WF h) {c : Comp} (v : c.OK h) : WF (h ++ [.comp c]) where
  leaf := fun r m k => by
    rcases getElem?_append_new k with k | ⟨-, k⟩
    · exact w.leaf r m k
    · exact absurd k (by simp)
  comp := fun r d k => by
    rcases getElem?_append_new k with k | ⟨-, k⟩
    · exact (w.comp r d k).ext (.append h _)
    · injection k with k; rw [k]; exact v.ext (.append h _)

/-! ### Flattening -/

/-- Left-to-right leaves of an object. -/
def leavesOf (h : Heap) (r : Ref) : List Ref :=
  match h[r]? with
  | some (.comp c) => c.members
  | _ => [r]

theorem flattenRef_leaf {h : Heap} {n : Nat} {r : Ref} {l : Leaf} (k : IsLeaf h r l) :
    flattenRef h (n + 1) r = .ok [r] := by
  unfold IsLeaf at k
  simp only [flattenRef, k]

theorem flattenRef_leaf' {h : Heap} {n : Nat} {r : Ref} {l : Leaf} {rs : List Ref} (k : IsLeaf h r l)
    (e : flattenRef h n r = .ok rs) : rs = [r] := by
  cases n with
  | zero => simp only [flattenRef] at e; cases e
  | succ n => rw [flattenRef_leaf k] at e; injection e with e; exact e.symm

theorem flatten_leaves {h : Heap} {n : Nat} {rs : List Ref} {fl : List (List Ref)}
    (k : ∀ r ∈ rs, ∃ l, IsLeaf h r l) (e : rs.mapM (flattenRef h n) = .ok fl) : fl.flatten = rs := by
  induction rs generalizing fl with
  | nil => rw [mapM_ok_nil e]; rfl
  | cons r rs ih =>
    obtain ⟨y, ys, e1, e2, rfl⟩ := mapM_ok_cons e
    obtain ⟨l, hl⟩ := k r (by simp)
    rw [flattenRef_leaf' hl e1, List.flatten_cons, ih (fun s hs => k s (by simp [hs])) e2]; rfl

theorem flattenRef_ok {h : Heap} (w : WF h) {n : Nat} {r : Ref} {rs : List Ref}
    (e : flattenRef h n r = .ok rs) : rs = leavesOf h r ∧ ∀ s ∈ rs, ∃ l, IsLeaf h s l := by
  cases n with
  | zero => simp only [flattenRef] at e; cases e
  | succ n =>
    simp only [flattenRef] at e
    cases hr : h[r]? with
    | none => rw [hr] at e; cases e
    | some o =>
      rw [hr] at e
      cases o with
      | leaf l =>
        injection e with e
        subst e
        refine ⟨by simp [leavesOf, hr], ?_⟩
        intro s hs
        rw [List.mem_singleton] at hs
        exact ⟨l, by rw [hs]; exact hr⟩
      | comp c =>
        obtain ⟨fl, e1, e2⟩ := map_ok e
        have kf : ∀ s ∈ c.members, ∃ l, IsLeaf h s l := fun s hs => by
          obtain ⟨l, hl, -⟩ := (w.comp r c hr).flat s hs
          exact ⟨l, hl⟩
        rw [flatten_leaves kf e1] at e2
        subst e2
        exact ⟨by simp [leavesOf, hr], kf⟩

mutual
/-- Left-to-right entries of an argument. -/
def leavesVal (h : Heap) : Val → List (Option Ref)
  | .ref r => (leavesOf h r).map some
  | .list vs => leavesVals h vs
  | .junk => [none]
def leavesVals (h : Heap) : List Val → List (Option Ref)
  | [] => []
  | v :: vs => leavesVal h v ++ leavesVals h vs
end

mutual
theorem flattenVal_ok {h : Heap} (w : WF h) {n : Nat} : ∀ (v : Val) {rs : List (Option Ref)},
    flattenVal h n v = .ok rs → rs = leavesVal h v ∧ ∀ s, some s ∈ rs → ∃ l, IsLeaf h s l
  | .ref r, rs, e => by
    rw [flattenVal] at e
    obtain ⟨a, e1, e2⟩ := map_ok e
    obtain ⟨k1, k2⟩ := flattenRef_ok w e1
    subst e2
    refine ⟨by rw [leavesVal, k1], fun s hs => ?_⟩
    rw [List.mem_map] at hs
    obtain ⟨x, hx, hxe⟩ := hs
    injection hxe with hxe
    exact hxe ▸ k2 x hx
  | .list vs, rs, e => by
    rw [flattenVal] at e
    rw [leavesVal]
    exact flattenVals_ok w vs e
  | .junk, rs, e => by
    rw [flattenVal] at e
    injection e with e
    subst e
    exact ⟨by rw [leavesVal], fun s hs => by simp at hs⟩
theorem flattenVals_ok {h : Heap} (w : WF h) {n : Nat} : ∀ (vs : List Val) {rs : List (Option Ref)},
    flattenVals h n vs = .ok rs → rs = leavesVals h vs ∧ ∀ s, some s ∈ rs → ∃ l, IsLeaf h s l
  | [], rs, e => by
    rw [flattenVals] at e
    injection e with e
    subst e
    exact ⟨by rw [leavesVals], fun s hs => by simp at hs⟩
  | v :: vs, rs, e => by
    rw [flattenVals] at e
    obtain ⟨a, e1, e⟩ := bind_ok e
    obtain ⟨b, e2, e⟩ := bind_ok e
    injection e with e
    subst e
    obtain ⟨k1, k2⟩ := flattenVal_ok w v e1
    obtain ⟨k3, k4⟩ := flattenVals_ok w vs e2
    refine ⟨by rw [leavesVals, k1, k3], fun s hs => ?_⟩
    rw [List.mem_append] at hs
    exact hs.elim (k2 s) (k4 s)
end

theorem mapM_id_some {vs : List (Option Ref)} {rs : List Ref} (e : vs.mapM id = some rs) :
    vs = rs.map some := by
  induction vs generalizing rs with
  | nil => rw [List.mapM_nil] at e; injection e with e; subst e; rfl
  | cons v vs ih =>
    rw [List.mapM_cons] at e
    cases v with
    | none => exact absurd e (by intro h; cases h)
    | some r =>
      cases hv : vs.mapM id with
      | none => rw [hv] at e; exact absurd e (by intro h; cases h)
      | some rs' =>
        rw [hv] at e
        have : some (r :: rs') = some rs := e
        injection this with this
        subst this
        rw [ih hv]; rfl

/-! ### Flags -/

theorem attrs_spec {h : Heap} {f : Obj → Bool} {g : Leaf → Bool} (fg : ∀ l, f (.leaf l) = g l)
    {rs : List Ref} {bs : List Bool} (k : ∀ r ∈ rs, ∃ l, IsLeaf h r l) (e : attrs h f rs = .ok bs) :
    (bs.any id = true ↔ ∃ r ∈ rs, ∃ l, IsLeaf h r l ∧ g l = true) ∧
      (bs.all id = true ↔ ∀ r ∈ rs, ∃ l, IsLeaf h r l ∧ g l = true) := by
  induction rs generalizing bs with
  | nil => rw [mapM_ok_nil e]; simp
  | cons r rs ih =>
    obtain ⟨y, ys, e1, e2, rfl⟩ := mapM_ok_cons e
    obtain ⟨l, hl⟩ := k r (by simp)
    have hl' : h[r]? = some (.leaf l) := hl
    rw [hl'] at e1
    injection e1 with e1
    rw [fg] at e1
    obtain ⟨i1, i2⟩ := ih (fun s hs => k s (by simp [hs])) e2
    have this : (∃ l, IsLeaf h r l ∧ g l = true) ↔ y = true := by
      constructor
      · rintro ⟨m, hm, p⟩; rw [isLeaf_unique hl hm] at e1; rw [← e1]; exact p
      · intro hy; exact ⟨l, hl, by rw [e1]; exact hy⟩
    constructor
    · simp only [List.any_cons, id, Bool.or_eq_true, List.mem_cons, exists_eq_or_imp, this]
      rw [← i1]
    · simp only [List.all_cons, id, Bool.and_eq_true, List.mem_cons, forall_eq_or_imp, this]
      rw [← i2]

theorem isNonAxi_spec {h : Heap} {rs : List Ref} {b : Bool} (k : ∀ r ∈ rs, ∃ l, IsLeaf h r l)
    (e : isNonAxi h rs = .ok b) :
    b = true ↔ ∃ r ∈ rs, ∃ l, IsLeaf h r l ∧ l.nonAxi = some true := by
  unfold isNonAxi at e
  obtain ⟨bs, e1, e2⟩ := bind_ok e
  injection e2 with e2
  subst e2
  induction rs generalizing bs with
  | nil => rw [mapM_ok_nil e1]; simp
  | cons r rs ih =>
    obtain ⟨y, ys, e3, e4, rfl⟩ := mapM_ok_cons e1
    obtain ⟨l, hl⟩ := k r (by simp)
    have hl' : h[r]? = some (.leaf l) := hl
    unfold nonAxiOf at e3
    rw [hl'] at e3
    simp only [Obj.nonAxi] at e3
    have hy : l.nonAxi = some y := by
      cases hn : l.nonAxi with
      | none => rw [hn] at e3; cases e3
      | some c => rw [hn] at e3; injection e3 with e3; rw [e3]
    have this : (∃ l, IsLeaf h r l ∧ l.nonAxi = some true) ↔ y = true := by
      constructor
      · rintro ⟨m, hm, p⟩; rw [← isLeaf_unique hl hm, hy] at p; injection p
      · intro h'; exact ⟨l, hl, by rw [hy, h']⟩
    have i := ih (fun s hs => k s (by simp [hs])) ys e4 (by rw [e4]; rfl)
    simp only [List.any_cons, id, Bool.or_eq_true, List.mem_cons, exists_eq_or_imp, this]
    rw [← i]

theorem isDissipative_spec {h : Heap} {n : Nat} {rs : List Ref} {b : Bool}
    (k : ∀ r ∈ rs, ∃ l, IsLeaf h r l) (e : isDissipative h n rs = .ok b) :
    b = true ↔ ∃ r ∈ rs, ∃ l, IsLeaf h r l ∧ l.dissipative = true := by
  unfold isDissipative at e
  obtain ⟨fl, e1, e⟩ := bind_ok e
  obtain ⟨bs, e2, e3⟩ := bind_ok e
  injection e3 with e3
  subst e3
  rw [flatten_leaves k e1] at e2
  exact (attrs_spec (g := Leaf.dissipative) (fun _ => rfl) k e2).1

theorem checkC_spec {h : Heap} {n : Nat} {f : Obj → Bool} {g : Leaf → Bool} (fg : ∀ l, f (.leaf l) = g l)
    {rs : List Ref} {b : Bool} (k : ∀ r ∈ rs, ∃ l, IsLeaf h r l) (e : checkC h n f rs = .ok b) :
    b = true ↔ ∀ r ∈ rs, ∃ l, IsLeaf h r l ∧ g l = true := by
  unfold checkC at e
  obtain ⟨fl, e1, e⟩ := bind_ok e
  obtain ⟨bs, e2, e3⟩ := bind_ok e
  injection e3 with e3
  subst e3
  rw [flatten_leaves k e1] at e2
  exact (attrs_spec fg k e2).2

theorem mkFlags_ok {h : Heap} {n dim : Nat} {rs : List Ref} {c : Comp} (w : WF h)
    (hd : dim = 1 ∨ dim = 2 ∨ dim = 3)
    (k : ∀ r ∈ rs, ∃ l, IsLeaf h r l ∧ l.dim = dim) (e : mkFlags h n dim rs = .ok c) :
    c.OK h ∧ c.members = rs ∧ c.dim = dim ∧ c.units = firstUnits h rs := by
  have k' : ∀ r ∈ rs, ∃ l, IsLeaf h r l := fun r hr => by
    obtain ⟨l, hl, -⟩ := k r hr; exact ⟨l, hl⟩
  unfold mkFlags at e
  obtain ⟨diss, e1, e⟩ := bind_ok e
  obtain ⟨na, e2, e⟩ := bind_ok e
  obtain ⟨b1, e3, e⟩ := bind_ok e
  obtain ⟨b2, e4, e⟩ := bind_ok e
  obtain ⟨b3, e5, e⟩ := bind_ok e
  obtain ⟨b4, e6, e⟩ := bind_ok e
  unfold initDissipative at e1
  unfold initNonAxi at e2
  unfold initC3d at e5
  injection e with e
  subst e
  refine ⟨⟨hd, k, ?_, ?_, ?_, ?_, ?_, ?_, ?_⟩, rfl, rfl, rfl⟩
  · intro h1
    simp only at h1
    rw [if_neg h1] at e2
    obtain ⟨b, e7, e8⟩ := map_ok e2
    exact ⟨b, e8.symm, isNonAxi_spec k' e7⟩
  · simp only
    by_cases h1 : dim = 1
    · rw [if_pos h1] at e1
      injection e1 with e1
      rw [← e1]
      constructor
      · intro h; exact absurd h (by simp)
      · rintro ⟨r, hr, l, hl, p⟩
        obtain ⟨m, hm, hmd⟩ := k r hr
        rw [isLeaf_unique hl hm] at p
        rcases w.leaf r m hm with ⟨-, -, q⟩ | ⟨q, -⟩
        · rw [q] at p; exact absurd p (by simp)
        · omega
    · rw [if_neg h1] at e1
      exact isDissipative_spec k' e1
  · exact checkC_spec (fun _ => rfl) k' e3
  · exact checkC_spec (fun _ => rfl) k' e4
  · intro b hb
    simp only at hb
    by_cases h3 : dim = 3
    · rw [if_pos h3] at e5
      obtain ⟨b', e7, e8⟩ := map_ok e5
      rw [← e8] at hb
      injection hb with hb
      subst hb
      exact checkC_spec (fun _ => rfl) k' e7
    · rw [if_neg h3] at e5
      injection e5 with e5
      rw [← e5] at hb
      exact absurd hb (by simp)
  · intro h3
    simp only at h3
    rw [if_pos h3] at e5
    obtain ⟨b', e7, e8⟩ := map_ok e5
    simp only
    rw [← e8]; simp
  · exact checkC_spec (fun _ => rfl) k' e6

/-! ### Construction -/

/-- What a successful construction yields. -/
structure Made (h h' : Heap) (r : Ref) (dim : Nat) (rs : List Ref) : Prop where
  wf : WF h'
  ext : Ext h h'
  made : ∃ c : Comp, h'[r]? = some (.comp c) ∧ c.members = rs ∧ c.dim = dim ∧ c.units = firstUnits h rs
  keep : ∀ (s : Ref) o, h[s]? = some o → h'[s]? = some o
  fresh : h[r]? = none

theorem mkComp_spec {h : Heap} (w : WF h) {n dim : Nat} {args : List Val} (hd : dim = 1 ∨ dim = 2 ∨ dim = 3) :
    (∃ e, mkComp n dim args h = (.error e, h)) ∨
      ∃ r rs, (mkComp n dim args h).1 = .ok r ∧ leavesVals h args = rs.map some ∧
        Made h (mkComp n dim args h).2 r dim rs ∧ allCompatible h rs := by
  unfold mkComp
  cases e1 : flattenVals h n args with
  | error e => left; exact ⟨e, rfl⟩
  | ok vs =>
    obtain ⟨k1, k2⟩ := flattenVals_ok w args e1
    cases e2 : vs.mapM id with
    | none => left; exact ⟨.attributeError, by simp only [e2]⟩
    | some rs =>
      simp only [e2]
      have k3 := mapM_id_some e2
      by_cases c1 : ∃ r ∈ rs, ∀ o, h[r]? = some o → o.dim ≠ dim
      · left; rw [if_pos c1]; exact ⟨_, rfl⟩
      · rw [if_neg c1]
        by_cases c2 : ¬ allCompatible h rs
        · left; rw [if_pos c2]; exact ⟨_, rfl⟩
        · rw [if_neg c2]
          cases e3 : mkFlags h n dim rs with
          | error e => left; exact ⟨e, rfl⟩
          | ok c =>
            right
            have k4 : ∀ r ∈ rs, ∃ l, IsLeaf h r l ∧ l.dim = dim := by
              intro r hr
              obtain ⟨l, hl⟩ := k2 r (by rw [k3]; exact List.mem_map_of_mem hr)
              refine ⟨l, hl, ?_⟩
              by_contra hne
              exact c1 ⟨r, hr, fun o ho => by
                unfold IsLeaf at hl
                rw [hl] at ho
                injection ho with ho
                rw [← ho]; exact hne⟩
            obtain ⟨ok, m1, m2, m3⟩ := mkFlags_ok w hd k4 e3
            refine ⟨h.length, rs, rfl, by rw [← k1, k3], ⟨w.append_comp ok, .append h _, ?_, ?_, ?_⟩,
              not_not.1 c2⟩
            · exact ⟨c, by simp, m1, m2, m3⟩
            · intro s o ho; exact getElem?_append_some ho
            · simp

theorem mkComp_wf {h : Heap} (w : WF h) {n dim : Nat} {args : List Val} (hd : dim = 1 ∨ dim = 2 ∨ dim = 3) :
    WF (mkComp n dim args h).2 := by
  rcases mkComp_spec w (n := n) (args := args) hd with ⟨e, he⟩ | ⟨r, rs, -, -, m, -⟩
  · rw [he]; exact w
  · exact m.wf

theorem mkComp_keep {h : Heap} {n dim : Nat} {args : List Val} (s : Ref) (o : Obj) (k : h[s]? = some o) :
    (mkComp n dim args h).2[s]? = some o := by
  unfold mkComp
  repeat' split
  all_goals first | exact k | exact getElem?_append_some k

end Verif.Compose

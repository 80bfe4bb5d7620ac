import Verif.Lemmas.ComposeEval
import Verif.Props.C06

set_option autoImplicit false

/-! # C08: combinations are always flat

The theorems about construction hold for every heap, including heaps in which item assignment has nested
combinations (see `C09_nested_fails`). -/

noncomputable section
namespace Verif
open Compose

/-! ### Specification: the leaves of a nested structure, left to right -/

mutual
/-- The single objects inside the object at `r`, left to right. -/
inductive Leaves (h : Heap) : Ref → List Ref → Prop
  | leaf {r : Ref} {l : Leaf} : IsLeaf h r l → Leaves h r [r]
  | comp {r : Ref} {c : Comp} {ls : List Ref} : h[r]? = some (.comp c) → LeavesL h c.members ls → Leaves h r ls
/-- The same for a list of objects. -/
inductive LeavesL (h : Heap) : List Ref → List Ref → Prop
  | nil : LeavesL h [] []
  | cons {r : Ref} {rs a b : List Ref} : Leaves h r a → LeavesL h rs b → LeavesL h (r :: rs) (a ++ b)
end

mutual
/-- The single objects inside an argument (an object or a nested list). -/
inductive ArgLeaves (h : Heap) : Val → List Ref → Prop
  | ref {r : Ref} {ls : List Ref} : Leaves h r ls → ArgLeaves h (.ref r) ls
  | list {vs : List Val} {ls : List Ref} : ArgsLeaves h vs ls → ArgLeaves h (.list vs) ls
/-- The single objects inside an argument list. -/
inductive ArgsLeaves (h : Heap) : List Val → List Ref → Prop
  | nil : ArgsLeaves h [] []
  | cons {v : Val} {vs : List Val} {a b : List Ref} :
    ArgLeaves h v a → ArgsLeaves h vs b → ArgsLeaves h (v :: vs) (a ++ b)
end

mutual
theorem Leaves.unique {h : Heap} {r : Ref} {a b : List Ref} : Leaves h r a → Leaves h r b → a = b
  | .leaf _, .leaf _ => rfl
  | .leaf k, .comp k' _ => by
    have e : h[r]? = _ := k
    rw [e] at k'; cases k'
  | .comp k _, .leaf k' => by
    have e : h[r]? = _ := k'
    rw [e] at k; cases k
  | .comp k x, .comp k' y => by
    have e := k.symm.trans k'
    injection e with e
    injection e with e
    subst e
    exact LeavesL.unique x y
theorem LeavesL.unique {h : Heap} {rs a b : List Ref} : LeavesL h rs a → LeavesL h rs b → a = b
  | .nil, .nil => rfl
  | .cons x y, .cons x' y' => by rw [Leaves.unique x x', LeavesL.unique y y']
end

mutual
theorem Leaves.isLeaf {h : Heap} {r : Ref} {a : List Ref} : Leaves h r a → ∀ s ∈ a, ∃ l, IsLeaf h s l
  | .leaf (l := l) k, s, hs => by
    rw [List.mem_singleton] at hs
    exact ⟨l, by rw [hs]; exact k⟩
  | .comp _ x, s, hs => LeavesL.isLeaf x s hs
theorem LeavesL.isLeaf {h : Heap} {rs a : List Ref} : LeavesL h rs a → ∀ s ∈ a, ∃ l, IsLeaf h s l
  | .cons x y, s, hs => (List.mem_append.1 hs).elim (Leaves.isLeaf x s) (LeavesL.isLeaf y s)
end

mutual
theorem Leaves.keep {h h' : Heap} (g : ∀ (s : Ref) o, h[s]? = some o → h'[s]? = some o) {r : Ref} {a : List Ref} :
    Leaves h r a → Leaves h' r a
  | .leaf k => .leaf (g _ _ k)
  | .comp k x => .comp (g _ _ k) (LeavesL.keep g x)
theorem LeavesL.keep {h h' : Heap} (g : ∀ (s : Ref) o, h[s]? = some o → h'[s]? = some o) {rs a : List Ref} :
    LeavesL h rs a → LeavesL h' rs a
  | .nil => .nil
  | .cons x y => .cons (Leaves.keep g x) (LeavesL.keep g y)
end

mutual
theorem ArgLeaves.isLeaf {h : Heap} {v : Val} {a : List Ref} : ArgLeaves h v a → ∀ s ∈ a, ∃ l, IsLeaf h s l
  | .ref k => k.isLeaf
  | .list k => ArgsLeaves.isLeaf k
theorem ArgsLeaves.isLeaf {h : Heap} {vs : List Val} {a : List Ref} : ArgsLeaves h vs a → ∀ s ∈ a, ∃ l, IsLeaf h s l
  | .cons x y, s, hs => (List.mem_append.1 hs).elim (ArgLeaves.isLeaf x s) (ArgsLeaves.isLeaf y s)
end

mutual
theorem ArgLeaves.unique {h : Heap} {v : Val} {a b : List Ref} : ArgLeaves h v a → ArgLeaves h v b → a = b
  | .ref x, .ref y => Leaves.unique x y
  | .list x, .list y => ArgsLeaves.unique x y
theorem ArgsLeaves.unique {h : Heap} {vs : List Val} {a b : List Ref} : ArgsLeaves h vs a → ArgsLeaves h vs b → a = b
  | .nil, .nil => rfl
  | .cons x y, .cons x' y' => by rw [ArgLeaves.unique x x', ArgsLeaves.unique y y']
end

theorem LeavesL.self {h : Heap} {rs : List Ref} (k : ∀ s ∈ rs, ∃ l, IsLeaf h s l) : LeavesL h rs rs := by
  induction rs with
  | nil => exact .nil
  | cons r rs ih =>
    obtain ⟨l, hl⟩ := k r (by simp)
    exact .cons (.leaf hl) (ih fun s hs => k s (by simp [hs]))

theorem ArgsLeaves.of_refs {h : Heap} {rs ls : List Ref} (k : ArgsLeaves h (rs.map Val.ref) ls) : LeavesL h rs ls := by
  induction rs generalizing ls with
  | nil => cases k; exact .nil
  | cons r rs ih =>
    rw [List.map_cons] at k
    cases k with
    | cons x y =>
      cases x with
      | ref x => exact .cons x (ih y)

theorem ArgsLeaves.split {h : Heap} {a b : List Val} {ls : List Ref} (k : ArgsLeaves h (a ++ b) ls) :
    ∃ x y, ls = x ++ y ∧ ArgsLeaves h a x ∧ ArgsLeaves h b y := by
  induction a generalizing ls with
  | nil => exact ⟨[], ls, rfl, .nil, k⟩
  | cons v a ih =>
    rw [List.cons_append] at k
    cases k with
    | cons x y =>
      obtain ⟨p, q, rfl, k1, k2⟩ := ih y
      exact ⟨_ ++ p, q, by rw [List.append_assoc], .cons x k1, k2⟩

theorem ArgsLeaves.single {h : Heap} {r : Ref} {ls : List Ref} (k : ArgsLeaves h [.ref r] ls) : Leaves h r ls := by
  cases k with
  | cons x y =>
    cases y
    cases x with
    | ref x => rw [List.append_nil]; exact x

theorem Compose.flattenRef_leaves {h : Heap} : ∀ (n : Nat) {r : Ref} {rs : List Ref},
    flattenRef h n r = .ok rs → Leaves h r rs
  | 0, r, rs, e => by simp only [flattenRef] at e; cases e
  | n + 1, r, rs, e => by
    rw [flattenRef] at e
    cases hr : h[r]? with
    | none => rw [hr] at e; cases e
    | some o =>
      rw [hr] at e
      cases o with
      | leaf l => injection e with e; subst e; exact .leaf hr
      | comp c =>
        obtain ⟨fl, e1, rfl⟩ := map_ok e
        refine .comp hr ?_
        have : ∀ (ms : List Ref) (fl : List (List Ref)), ms.mapM (flattenRef h n) = .ok fl →
            LeavesL h ms fl.flatten := by
          intro ms
          induction ms with
          | nil => intro fl e; rw [mapM_ok_nil e]; exact .nil
          | cons s ms ih =>
            intro fl e
            obtain ⟨y, ys, e2, e3, rfl⟩ := mapM_ok_cons e
            rw [List.flatten_cons]
            exact .cons (Compose.flattenRef_leaves n e2) (ih ys e3)
        exact this _ _ e1

mutual
theorem Compose.flattenVal_leaves {h : Heap} {n : Nat} : ∀ (v : Val) {vs : List (Option Ref)} {rs : List Ref},
    flattenVal h n v = .ok vs → vs = rs.map some → ArgLeaves h v rs
  | .ref r, vs, rs, e, hv => by
    rw [flattenVal] at e
    obtain ⟨ls, e1, e2⟩ := map_ok e
    rw [hv] at e2
    have := map_some_inj e2.symm
    subst this
    exact .ref (Compose.flattenRef_leaves n e1)
  | .list us, vs, rs, e, hv => by
    rw [flattenVal] at e
    exact .list (Compose.flattenVals_leaves us e hv)
  | .junk, vs, rs, e, hv => by
    rw [flattenVal] at e
    injection e with e
    rw [hv] at e
    cases rs with
    | nil => cases e
    | cons r rs => rw [List.map_cons] at e; injection e with e; cases e
theorem Compose.flattenVals_leaves {h : Heap} {n : Nat} : ∀ (us : List Val) {vs : List (Option Ref)} {rs : List Ref},
    flattenVals h n us = .ok vs → vs = rs.map some → ArgsLeaves h us rs
  | [], vs, rs, e, hv => by
    rw [flattenVals] at e
    injection e with e
    rw [hv] at e
    cases rs with
    | nil => exact .nil
    | cons r rs => cases e
  | u :: us, vs, rs, e, hv => by
    rw [flattenVals] at e
    obtain ⟨a, e1, e2⟩ := bind_ok e
    obtain ⟨b, e3, e4⟩ := bind_ok e2
    injection e4 with e4
    rw [hv] at e4
    obtain ⟨x, y, rfl, hx, hy⟩ := List.map_eq_append_iff.1 e4.symm
    exact .cons (Compose.flattenVal_leaves u e1 hx.symm) (Compose.flattenVals_leaves us e3 hy.symm)
end

theorem Compose.mapM_id_eq {vs : List (Option Ref)} {rs : List Ref} (e : vs.mapM id = some rs) : vs = rs.map some :=
  mapM_id_some e

theorem Compose.mkFlags_fields {h : Heap} {n dim : Nat} {rs : List Ref} {c : Comp}
    (e : mkFlags h n dim rs = .ok c) : c.members = rs ∧ c.dim = dim := by
  unfold mkFlags at e
  obtain ⟨_, _, e⟩ := bind_ok e
  obtain ⟨_, _, e⟩ := bind_ok e
  obtain ⟨_, _, e⟩ := bind_ok e
  obtain ⟨_, _, e⟩ := bind_ok e
  obtain ⟨_, _, e⟩ := bind_ok e
  obtain ⟨_, _, e⟩ := bind_ok e
  injection e with e
  subst e
  exact ⟨rfl, rfl⟩

/-- Constructor: from any nesting of lists and combinations, of any depth and shape, in any heap, the
members are exactly the single objects in left-to-right order, all of the combination's dimension. -/
theorem C08_construct {n dim : Nat} {args : List Val} {h h' : Heap} {r : Ref}
    (e : mkComp n dim args h = (.ok r, h')) :
    ∃ c : Comp, h'[r]? = some (.comp c) ∧ c.dim = dim ∧ ArgsLeaves h args c.members ∧
      ∀ s ∈ c.members, ∃ l, IsLeaf h' s l ∧ l.dim = dim := by
  have keep : ∀ (s : Ref) o, h[s]? = some o → h'[s]? = some o := fun s o k => by
    have := mkComp_keep (n := n) (dim := dim) (args := args) s o k
    rw [e] at this; exact this
  unfold mkComp at e
  cases e1 : flattenVals h n args with
  | error x => rw [e1] at e; cases e
  | ok vs =>
    rw [e1] at e
    simp only at e
    cases e2 : vs.mapM id with
    | none => rw [e2] at e; cases e
    | some rs =>
      rw [e2] at e
      simp only at e
      split at e
      · cases e
      · rename_i c1
        split at e
        · cases e
        · cases e3 : mkFlags h n dim rs with
          | error x => rw [e3] at e; cases e
          | ok c =>
            rw [e3] at e
            injection e with e4 e5
            injection e4 with e4
            subst e4 e5
            obtain ⟨m1, m2⟩ := Compose.mkFlags_fields e3
            have al := Compose.flattenVals_leaves args e1 (Compose.mapM_id_eq e2)
            refine ⟨c, by simp, m2, by rw [m1]; exact al, ?_⟩
            rw [m1]
            intro s hs
            obtain ⟨l, hl⟩ := al.isLeaf s hs
            refine ⟨l, keep s _ hl, ?_⟩
            by_contra hne
            exact c1 ⟨s, hs, fun o ho => by
              unfold IsLeaf at hl
              rw [hl] at ho
              injection ho with ho
              rw [← ho]; exact hne⟩

/-- `mkComp` is the only way `+` produces its result. -/
theorem Compose.add_made {n : Nat} {a r : Ref} {b : Val} {h h' : Heap} (e : Compose.add n a b h = (.ok r, h')) :
    ∃ dim args h1, mkComp n dim args h1 = (.ok r, h') := by
  unfold Compose.add at e
  repeat' split at e
  all_goals first | (cases e; done) | exact ⟨_, _, _, e⟩

/-- `+` always yields a flat combination: every member is a single object of the combination's
dimension. Any heap, any operand (object, combination, nested list). -/
theorem C08_add_flat {n : Nat} {a r : Ref} {b : Val} {h h' : Heap} (e : Compose.add n a b h = (.ok r, h')) :
    ∃ c : Comp, h'[r]? = some (.comp c) ∧ ∀ s ∈ c.members, ∃ l, IsLeaf h' s l ∧ l.dim = c.dim := by
  obtain ⟨dim, args, h1, e1⟩ := Compose.add_made e
  obtain ⟨c, hc, hd, -, k⟩ := C08_construct e1
  exact ⟨c, hc, by rw [hd]; exact k⟩

/-- Flattening what was flattened changes nothing. -/
theorem C08_flatten_idempotent {h : Heap} {n : Nat} {vs : List Val} {rs : List Ref}
    (e : flattenVals h n vs = .ok (rs.map some)) (j : Nat) :
    flattenVals h (j + 1) (rs.map Val.ref) = .ok (rs.map some) :=
  flattenVals_refs (Compose.flattenVals_leaves vs e rfl).isLeaf

/-- A combination rebuilt from the members of a combination made by construction has the same members. -/
theorem C08_rebuild {n n' dim dim' : Nat} {args : List Val} {h h' h'' : Heap} {r r' : Ref} {c : Comp}
    (e : mkComp n dim args h = (.ok r, h')) (hc : h'[r]? = some (.comp c))
    (e' : mkComp n' dim' (c.members.map Val.ref) h' = (.ok r', h'')) :
    ∃ c' : Comp, h''[r']? = some (.comp c') ∧ c'.members = c.members := by
  obtain ⟨c1, hc1, -, -, k⟩ := C08_construct e
  rw [hc] at hc1
  injection hc1 with hc1
  injection hc1 with hc1
  subst hc1
  obtain ⟨c', hc', -, al, -⟩ := C08_construct e'
  refine ⟨c', hc', ?_⟩
  exact LeavesL.unique al.of_refs (.self fun s hs => by
    obtain ⟨l, hl, -⟩ := k s hs
    exact ⟨l, hl⟩)

/-- Objects of one dimension: the members of `a + b` are those of `a` followed by those of `b`. -/
theorem C08_add_members {n : Nat} {a b r : Ref} {h h' : Heap} (e : Compose.add n a (.ref b) h = (.ok r, h'))
    {dim : Nat} (ha : HasDim h a dim) (hb : HasDim h b dim) :
    ∃ (c : Comp) (la lb : List Ref), h'[r]? = some (.comp c) ∧ c.dim = dim ∧ Leaves h a la ∧ Leaves h b lb ∧
      c.members = la ++ lb ∧ ∀ (s : Ref) o, h[s]? = some o → h'[s]? = some o := by
  have fin : ∀ {dim' : Nat}, mkComp n dim' [.ref a, .ref b] h = (.ok r, h') → dim' = dim →
      ∃ (c : Comp) (la lb : List Ref), h'[r]? = some (.comp c) ∧ c.dim = dim ∧ Leaves h a la ∧ Leaves h b lb ∧
      c.members = la ++ lb ∧ ∀ (s : Ref) o, h[s]? = some o → h'[s]? = some o := by
    rintro dim' e rfl
    obtain ⟨c, hc, hcd, al, -⟩ := C08_construct e
    obtain ⟨x, y, hxy, kx, ky⟩ := ArgsLeaves.split (a := [.ref a]) (b := [.ref b]) al
    refine ⟨c, x, y, hc, hcd, kx.single, ky.single, hxy, fun s o k => ?_⟩
    have := mkComp_keep (n := n) (dim := dim') (args := [.ref a, .ref b]) s o k
    rw [e] at this; exact this
  obtain ⟨oa, hoa, hda⟩ := ha
  obtain ⟨ob, hob, hdb⟩ := hb
  unfold Compose.add at e
  rw [hoa] at e
  cases oa with
  | leaf l =>
    have hda' : l.dim = dim := hda
    have vd : valDim h (.ref b) = some dim := by simp [valDim, hob, hdb]
    simp only [vd] at e
    split at e
    · cases e
    · split at e
      · rename_i q
        split at e
        · cases e
        · split at e
          · cases e
          · exact fin e (by omega)
      · split at e
        · cases e
        · split at e
          · rename_i q
            split at e
            · rename_i q'
              injection q' with q'
              omega
            · exact fin e (by omega)
          · rename_i q0 _ hd hh q1 q
            split at e
            · cases e
            · split at e
              · rename_i q'
                injection q' with q'
                omega
              · refine fin e ?_
                -- dimension 3 remains: the first leaf of `b` is 2D or 3D
                obtain ⟨c, hc, hcd, al, k⟩ := C08_construct e
                obtain ⟨x, y, hxy, kx, ky⟩ := ArgsLeaves.split (a := [.ref a]) (b := [.ref b]) al
                have hl : Leaves h a [a] := .leaf hoa
                have := Leaves.unique kx.single hl
                subst this
                obtain ⟨m, hm, hmd⟩ := k a (by rw [hxy]; simp)
                have keep := mkComp_keep (n := n) (dim := 3) (args := [.ref a, .ref b]) a _ hoa
                rw [e] at keep
                rw [isLeaf_unique hm keep] at hmd
                omega
  | comp c =>
    have hdc : c.dim = dim := hda
    simp only [hob] at e
    have fin2 : ∀ {args : List Val}, mkComp n c.dim (c.members.map Val.ref ++ args) h = (.ok r, h') →
        (∀ ls, ArgsLeaves h args ls → Leaves h b ls) →
        ∃ (c : Comp) (la lb : List Ref), h'[r]? = some (.comp c) ∧ c.dim = dim ∧ Leaves h a la ∧ Leaves h b lb ∧
        c.members = la ++ lb ∧ ∀ (s : Ref) o, h[s]? = some o → h'[s]? = some o := by
      intro args e kb
      obtain ⟨c', hc', hcd, al, -⟩ := C08_construct e
      obtain ⟨x, y, hxy, kx, ky⟩ := ArgsLeaves.split al
      refine ⟨c', x, y, hc', hcd.trans hdc, .comp hoa kx.of_refs, kb y ky, hxy, fun s o k => ?_⟩
      have := mkComp_keep (n := n) (dim := c.dim) (args := c.members.map Val.ref ++ args) s o k
      rw [e] at this; exact this
    split at e
    · cases e
    · split at e
      · cases e
      · split at e
        · rename_i q; omega
        · split at e
          · rename_i q; omega
          · cases ob with
            | leaf l => exact fin2 e fun ls k => k.single
            | comp d => exact fin2 e fun ls k => .comp hob k.of_refs

/-- `+` is associative: `(a + b) + c` and `a + (b + c)` have the same members in the same order. -/
theorem C08_assoc {n : Nat} {a b c ab bc r r' : Ref} {h h1 h2 h3 h4 : Heap} {dim : Nat}
    (da : HasDim h a dim) (db : HasDim h b dim) (dc : HasDim h c dim)
    (e1 : Compose.add n a (.ref b) h = (.ok ab, h1)) (e2 : Compose.add n ab (.ref c) h1 = (.ok r, h2))
    (e3 : Compose.add n b (.ref c) h = (.ok bc, h3)) (e4 : Compose.add n a (.ref bc) h3 = (.ok r', h4)) :
    ∃ p q : Comp, h2[r]? = some (.comp p) ∧ h4[r']? = some (.comp q) ∧ p.members = q.members := by
  obtain ⟨cab, la, lb, h_ab, dab, Ka, Kb, m1, g1⟩ := C08_add_members e1 da db
  obtain ⟨oc, hoc, hdc⟩ := dc
  obtain ⟨oa, hoa, hda⟩ := da
  obtain ⟨p, lab, lc, hp, -, Kab, Kc, m2, g2⟩ := C08_add_members e2 ⟨_, h_ab, dab⟩ ⟨oc, g1 c oc hoc, hdc⟩
  obtain ⟨cbc, lb', lc', h_bc, dbc, Kb', Kc', m3, g3⟩ := C08_add_members e3 db ⟨oc, hoc, hdc⟩
  obtain ⟨q, la', lbc, hq, -, Ka', Kbc, m4, g4⟩ := C08_add_members e4 ⟨oa, g3 a oa hoa, hda⟩ ⟨_, h_bc, dbc⟩
  refine ⟨p, q, hp, hq, ?_⟩
  have leaves_of : ∀ {h : Heap} {r : Ref} {c : Comp} {ls : List Ref}, h[r]? = some (.comp c) →
      (∀ s ∈ c.members, ∃ l, IsLeaf h s l) → Leaves h r ls → ls = c.members := by
    intro h r c ls hr k K
    exact Leaves.unique K (.comp hr (.self k))
  have e5 : lab = la ++ lb := by
    rw [← m1]
    refine leaves_of h_ab ?_ Kab
    rw [m1]
    intro s hs
    obtain ⟨l, hl⟩ := (List.mem_append.1 hs).elim (Ka.isLeaf s) (Kb.isLeaf s)
    exact ⟨l, g1 s _ hl⟩
  have e6 : lbc = lb' ++ lc' := by
    rw [← m3]
    refine leaves_of h_bc ?_ Kbc
    rw [m3]
    intro s hs
    obtain ⟨l, hl⟩ := (List.mem_append.1 hs).elim (Kb'.isLeaf s) (Kc'.isLeaf s)
    exact ⟨l, g3 s _ hl⟩
  rw [m2, m4, e5, e6, Leaves.unique Kb' Kb, Leaves.unique (Ka.keep g3) Ka', Leaves.unique Kc (Kc'.keep g1),
    List.append_assoc]

theorem Leaves.eq_leavesOf {h : Heap} (w : WF h) {s : Ref} {ls : List Ref} (K : Leaves h s ls) :
    ls = leavesOf h s := by
  cases hs : h[s]? with
  | none => cases K with
    | leaf x => unfold IsLeaf at x; rw [hs] at x; cases x
    | comp x _ => rw [hs] at x; cases x
  | some o => cases o with
    | leaf l =>
      have : leavesOf h s = [s] := by simp [leavesOf, hs]
      rw [this]; exact Leaves.unique K (.leaf hs)
    | comp c =>
      have : leavesOf h s = c.members := by simp [leavesOf, hs]
      rw [this]; exact Leaves.unique K (.comp hs (.self (members_leaf w hs)))

/-- The number of members of `a + b` is the sum of the numbers of members of `a` and `b`, also when a 3D
and a 2D object are added (the 3D members are replaced one by one by their planar versions). -/
theorem C08_length {m n : Nat} {h h' : Heap} (k : Reachable m h) {a b r : Ref}
    (e : Compose.add n a (.ref b) h = (.ok r, h')) {la lb : List Ref} (Ka : Leaves h a la) (Kb : Leaves h b lb) :
    ∃ c : Comp, h'[r]? = some (.comp c) ∧ c.members.length = la.length + lb.length := by
  obtain ⟨c, hc, -⟩ := C08_add_flat e
  refine ⟨c, hc, ?_⟩
  obtain ⟨dim, pa, pb, A, B, g, el, -⟩ := add_result k.wf e
  have len : ∀ {s : Ref} {ps : List Ref}, Operand h h' dim s ps → ps.length = (leavesOf h s).length := by
    intro s ps o
    rcases o with ⟨-, rfl⟩ | ⟨-, -, F⟩
    · rfl
    · exact F.length_eq.symm
  have : c.members = pa ++ pb := by rw [← el]; simp [leavesOf, hc]
  rw [this, List.length_append, len A, len B, Ka.eq_leavesOf k.wf, Kb.eq_leavesOf k.wf]

/-- In every session state the members of every combination are single objects (item assignments of
combinations to an integer item excepted, see `C09_nested_fails`). -/
theorem C08_session {m : Nat} {h : Heap} (k : Reachable m h) {r : Ref} {c : Comp} (hr : h[r]? = some (.comp c)) :
    ∀ s ∈ c.members, ∃ l, IsLeaf h s l ∧ l.dim = c.dim := (k.wf.comp r c hr).flat

/-- Non-vacuity: nested lists and a combination as arguments. -/
example (m : Nat) : ∃ (h : Heap) (c : Comp), Reachable m h ∧ h[2]? = some (.comp c) ∧
    ArgsLeaves h [.list [.ref 2, .list [.ref 0]], .ref 1] [0, 1, 0, 1] := by
  obtain ⟨c, hc, k⟩ := Compose.plummerPair m
  set h : Heap := [.leaf (plummerLeaf 1 1), .leaf (plummerLeaf 2 3), .comp c]
  have k0 : Leaves h 0 [0] := .leaf (l := plummerLeaf 1 1) rfl
  have k1 : Leaves h 1 [1] := .leaf (l := plummerLeaf 2 3) rfl
  have k2 : Leaves h 2 [0, 1] := .comp (c := c) rfl (by rw [hc]; exact .cons k0 (.cons k1 .nil))
  exact ⟨h, c, k, rfl, .cons (.list (.cons (.ref k2) (.cons (.list (.cons (.ref k0) .nil)) .nil)))
    (.cons (.ref k1) .nil)⟩

end Verif

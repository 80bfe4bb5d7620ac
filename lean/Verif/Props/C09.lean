import Verif.Props.C08
import Verif.Props.C07

set_option autoImplicit false

/-! # C09: the flags of a combination track its members -/

noncomputable section
namespace Verif
open Compose

/-- In every session state (any sequence of constructions, sums, multiples, item reads and item
assignments, unit changes, including operations that raise), the flags of every combination equal the
or/and of its members' flags. Missing from the full claim: assignments on one-dimensional combinations
(`C09_linear_fails`) and of a combination to an integer item (`C09_nested_fails`), for which it is false. -/
theorem C09_flags_partial {m : Nat} {h : Heap} (k : Reachable m h) {r : Ref} {c : Comp}
    (hr : h[r]? = some (.comp c)) :
    (c.dim ≠ 1 → ∃ b, c.nonAxi = some b ∧
      (b = true ↔ ∃ s ∈ c.members, ∃ l, IsLeaf h s l ∧ l.nonAxi = some true)) ∧
    (c.dissipative = true ↔ ∃ s ∈ c.members, ∃ l, IsLeaf h s l ∧ l.dissipative = true) ∧
    (c.hasC = true ↔ ∀ s ∈ c.members, ∃ l, IsLeaf h s l ∧ l.hasC = true) ∧
    (c.hasC_dxdv = true ↔ ∀ s ∈ c.members, ∃ l, IsLeaf h s l ∧ l.hasC_dxdv = true) ∧
    (∀ b, c.hasC_dxdv3d = some b → (b = true ↔ ∀ s ∈ c.members, ∃ l, IsLeaf h s l ∧ l.hasC_dxdv3d = true)) ∧
    (c.dim = 3 → c.hasC_dxdv3d ≠ none) ∧
    (c.hasC_dens = true ↔ ∀ s ∈ c.members, ∃ l, IsLeaf h s l ∧ l.hasC_dens = true) :=
  have ok := k.wf.comp r c hr
  ⟨ok.nonAxi, ok.dissipative, ok.hasC, ok.hasC_dxdv, ok.hasC_dxdv3d, ok.has3d, ok.hasC_dens⟩

/-- The assignment itself, when the checks pass. -/
theorem Compose.setItem_eq {h : Heap} {n : Nat} {a r : Ref} {c : Comp} {o : Obj} {k : Key} {rs : List Ref}
    (ha : h[a]? = some (.comp c)) (hr : h[r]? = some o) (hd : o.dim = c.dim)
    (hk : ∀ i : Int, k = .int i → i = 0) (e : assign c r o k = some rs) :
    setItem n a k (.ref r) h =
      ((recompute (h.set a (.comp { c with members := rs })) n { c with members := rs }).1,
        (h.set a (.comp { c with members := rs })).set a
          (.comp (recompute (h.set a (.comp { c with members := rs })) n { c with members := rs }).2)) := by
  unfold setItem
  simp only [ha, hr]
  rw [if_neg (not_not.2 hd), if_neg, e]
  rintro ⟨⟨i, h1, h2⟩, -⟩
  exact h2 (hk i h1)

/-- Assigning an item of a one-dimensional combination always raises `PotentialError` (one-dimensional
potentials have no axisymmetry attribute), after the member list has been changed and before any flag has
been recomputed. -/
theorem C09_linear_raises {m n : Nat} {h : Heap} (q : Reachable m h) {a r : Ref} {c : Comp} {l : Leaf}
    (ha : h[a]? = some (.comp c)) (hc : c.dim = 1) (hr : IsLeaf h r l) (hl : l.dim = 1) (hne : c.members ≠ []) :
    setItem n a (.int 0) (.ref r) h =
      (.error .potentialError, h.set a (.comp { c with members := c.members.set 0 r })) := by
  have hp : assign c r (.leaf l) (.int 0) = some (c.members.set 0 r) := by
    have : 0 < c.members.length := List.length_pos_iff.2 hne
    simp only [assign, pyIndex, le_refl, if_true, Int.toNat_zero]
    rw [if_pos this]; rfl
  have E := Compose.setItem_eq (n := n) (k := .int 0) ha hr (hl.trans hc.symm) (fun i hi => by
    injection hi with hi; exact hi.symm) hp
  have hmem : ∃ s ss, c.members.set 0 r = s :: ss := by
    cases hcm : c.members with
    | nil => exact absurd hcm hne
    | cons x xs => exact ⟨r, xs, rfl⟩
  obtain ⟨s, ss, hs⟩ := hmem
  have hsr : s = r := by
    cases hcm : c.members with
    | nil => exact absurd hcm hne
    | cons x xs => rw [hcm] at hs; injection hs with h1 h2; exact h1.symm
  subst hsr
  have hn : l.nonAxi = none := by
    rcases q.wf.leaf s l hr with ⟨-, b, -⟩ | ⟨b, -⟩
    · exact b
    · omega
  have er : recompute (h.set a (.comp { c with members := c.members.set 0 s })) n
      { c with members := c.members.set 0 s } =
      (.error .potentialError, { c with members := c.members.set 0 s }) := by
    unfold recompute
    have : isNonAxi (h.set a (.comp { c with members := c.members.set 0 s })) (c.members.set 0 s) =
        .error .potentialError := by
      unfold isNonAxi
      rw [hs, List.mapM_cons]
      have : nonAxiOf (h.set a (.comp { c with members := s :: ss })) s = .error .potentialError := by
        have := (isLeaf_set (c' := { c with members := s :: ss }) ha s l).2 hr
        unfold IsLeaf at this
        simp only [nonAxiOf, this, Obj.nonAxi, hn]
      rw [this]; rfl
    simp only [this]
  rw [E, er]
  simp only [List.set_set]

/-- A plain object for the examples below. -/
def Compose.plain (dim : Nat) (na : Option Bool) (hasC : Bool) (u : Units) : Leaf where
  dim := dim
  nonAxi := na
  dissipative := false
  hasC := hasC
  hasC_dxdv := false
  hasC_dxdv3d := false
  hasC_dens := false
  hasC_planar := false
  amp := 1
  units := u
  meth := fun _ _ _ _ _ _ => 1

theorem Compose.plain_valid1 (b : Bool) (u : Units) : (plain 1 none b u).valid := .inl ⟨rfl, rfl, rfl⟩
theorem Compose.plain_valid3 (na b : Bool) (u : Units) : (plain 3 (some na) b u).valid := .inr ⟨.inr rfl, rfl⟩

/-- Two plain objects and a combination of the first with itself are reachable. -/
theorem Compose.plainSession (m : Nat) (x y : Leaf) (vx : x.valid) (vy : y.valid) :
    ∃ c : Comp, c.members = [0] ∧ c.dim = x.dim ∧ c.units = x.units ∧
      Reachable m [.leaf x, .leaf y, .comp c] := by
  have r1 : Reachable m [.leaf x, .leaf y] := .step (.new y) (.step (.new x) .start vx) vy
  have hd : x.dim = 1 ∨ x.dim = 2 ∨ x.dim = 3 := leaf_dims r1.wf (r := 0) rfl
  obtain ⟨c, e, hc, hcd, hu⟩ := mkComp_total r1.wf (n := m) (dim := x.dim) (rs := [0]) hd
    (by
      intro r hr
      simp only [List.mem_singleton] at hr
      subst hr
      exact ⟨x, rfl, rfl⟩)
    (by intro s hs; cases hs)
  refine ⟨c, hc, hcd, hu, ?_⟩
  have := Reachable.step (.combine x.dim ([0].map Val.ref)) r1 hd
  rw [exec, e] at this
  exact this

/-- The full claim fails for one-dimensional combinations: after an item assignment that raised, the
combination says it has C code although its member has none. -/
theorem C09_linear_fails (m : Nat) : ∃ (h : Heap) (a r : Ref) (c : Comp), Reachable m h ∧
    (exec (m + 1) h (.set a (.int 0) (.ref r)))[a]? = some (.comp c) ∧ c.hasC = true ∧
    ∃ s ∈ c.members, ∃ l, IsLeaf (exec (m + 1) h (.set a (.int 0) (.ref r))) s l ∧ l.hasC = false := by
  obtain ⟨c, hc, hcd, -, k⟩ := Compose.plainSession m (plain 1 none true defaultUnits) (plain 1 none false defaultUnits)
    (plain_valid1 _ _) (plain_valid1 _ _)
  set h : Heap := [.leaf (plain 1 none true defaultUnits), .leaf (plain 1 none false defaultUnits), .comp c] with hh
  have hC : c.hasC = true := by
    refine (k.wf.comp 2 c rfl).hasC.2 ?_
    rw [hc]
    intro s hs
    rw [List.mem_singleton] at hs
    subst hs
    exact ⟨_, rfl, rfl⟩
  have e := C09_linear_raises (n := m + 1) k (a := 2) (r := 1) (c := c) rfl hcd (l := plain 1 none false defaultUnits)
    rfl rfl (by rw [hc]; simp)
  refine ⟨h, 2, 1, { c with members := c.members.set 0 1 }, k, ?_, hC, 1, ?_, plain 1 none false defaultUnits, ?_, rfl⟩
  · rw [exec, e]; rfl
  · rw [hc]; simp
  · rw [exec, e]; rfl

/-- The combination of a single member `r` with the given axisymmetry flag. -/
def Compose.flagged (r : Ref) (na : Bool) (u : Units) : Comp where
  dim := 3
  members := [r]
  nonAxi := some na
  dissipative := false
  hasC := true
  hasC_dxdv := false
  hasC_dxdv3d := some false
  hasC_dens := false
  units := u

/-- The full claim fails when a combination is assigned to an integer item: it stays nested, and a later
assignment inside the nested one leaves the outer flags stale. The outer combination then claims to be
axisymmetric although it contains a non-axisymmetric potential, and evaluating it without `phi` is not
rejected with `PotentialError`. -/
theorem C09_nested_fails (m : Nat) : ∃ (h : Heap) (c : Comp) (ls : List Ref), Reachable (m + 1) h ∧
    (let h' := exec (m + 2) (exec (m + 2) h (.set 3 (.int 0) (.ref 2))) (.set 2 (.int 0) (.ref 1));
      h'[3]? = some (.comp c) ∧ c.members = [2] ∧ (∃ d, h'[2]? = some (.comp d)) ∧ c.nonAxi = some false ∧
      Leaves h' 3 ls ∧ (∃ s ∈ ls, ∃ l, IsLeaf h' s l ∧ l.nonAxi = some true) ∧
      ∀ f R z t v n, evaluate h' f 3 R z none t v n ≠ .error .potentialError) := by
  obtain ⟨c, hc, hcd, -, k⟩ := Compose.plainSession (m + 1) (plain 3 (some false) true defaultUnits)
    (plain 3 (some true) true defaultUnits) (plain_valid3 _ _ _) (plain_valid3 _ _ _)
  obtain ⟨d, e, hd, hdd, -⟩ := mkComp_total k.wf (n := m + 1) (dim := 3) (rs := [0]) (by simp)
    (by
      intro r hr
      simp only [List.mem_singleton] at hr
      subst hr
      exact ⟨plain 3 (some false) true defaultUnits, rfl, rfl⟩)
    (by intro s hs; cases hs)
  have k2 : Reachable (m + 1) [.leaf (plain 3 (some false) true defaultUnits),
      .leaf (plain 3 (some true) true defaultUnits), .comp c, .comp d] := by
    have := Reachable.step (.combine 3 ([0].map Val.ref)) k (by simp [Safe])
    rw [exec, e] at this
    exact this
  set h : Heap := [.leaf (plain 3 (some false) true defaultUnits),
      .leaf (plain 3 (some true) true defaultUnits), .comp c, .comp d] with hh
  have hcn : c.nonAxi = some false := by
    obtain ⟨b, hb, hb'⟩ := (k2.wf.comp 2 c rfl).nonAxi (by rw [hcd]; simp [plain])
    cases b with
    | false => exact hb
    | true =>
      obtain ⟨s, hs, l, hl, q⟩ := hb'.1 rfl
      rw [hc, List.mem_singleton] at hs
      subst hs
      have : l = plain 3 (some false) true defaultUnits := isLeaf_unique hl rfl
      rw [this] at q
      cases q
  have hcdiss : c.dissipative = false := by
    cases hb : c.dissipative with
    | false => rfl
    | true =>
      obtain ⟨s, hs, l, hl, q⟩ := (k2.wf.comp 2 c rfl).dissipative.1 hb
      rw [hc, List.mem_singleton] at hs
      subst hs
      have : l = plain 3 (some false) true defaultUnits := isLeaf_unique hl rfl
      rw [this] at q
      cases q
  -- first assignment: `d[0] = c`
  have hcd' : c.dim = 3 := hcd
  have e1 : setItem (m + 2) 3 (.int 0) (.ref 2) h = (.ok (), [.leaf (plain 3 (some false) true defaultUnits),
      .leaf (plain 3 (some true) true defaultUnits), .comp c,
      .comp (flagged 2 false d.units)]) := by
    rw [Compose.setItem_eq (c := d) (o := .comp c) (rs := [2]) rfl rfl (by show c.dim = d.dim; rw [hcd', hdd])
      (fun i hi => by injection hi with hi; exact hi.symm) (by
        simp only [assign, pyIndex, hd]; rfl)]
    have er : recompute (h.set 3 (.comp { d with members := [2] })) (m + 2) { d with members := [2] } =
        (.ok (), (flagged 2 false d.units)) := by
      have f1 : [2].mapM (flattenRef (h.set 3 (.comp { d with members := [2] })) (m + 2)) = .ok [[0]] := by
        have : flattenRef (h.set 3 (.comp { d with members := [2] })) (m + 2) 2 = .ok [0] := by
          rw [flattenRef]
          show Except.map List.flatten (c.members.mapM _) = _
          rw [hc]; rfl
        rw [List.mapM_cons, this]; rfl
      have f2 : isNonAxi (h.set 3 (.comp { d with members := [2] })) [2] = .ok false := by
        unfold isNonAxi
        rw [List.mapM_cons]
        have : nonAxiOf (h.set 3 (.comp { d with members := [2] })) 2 = .ok false := by
          unfold nonAxiOf
          show (match c.nonAxi with
            | some b => (.ok b : Except Err Bool)
            | none => .error .potentialError) = _
          rw [hcn]
        rw [this]; rfl
      unfold recompute
      simp only [f2]
      unfold isDissipative checkC
      simp only [f1]
      rw [show flagged 2 false d.units = { flagged 2 false d.units with dim := d.dim } by rw [hdd]; rfl]; rfl
    rw [er]; rfl
  set h1 : Heap := [.leaf (plain 3 (some false) true defaultUnits),
      .leaf (plain 3 (some true) true defaultUnits), .comp c,
      .comp (flagged 2 false d.units)] with hh1
  -- second assignment: `c[0] = ` the non-axisymmetric one
  have e2 : setItem (m + 2) 2 (.int 0) (.ref 1) h1 = (.ok (), [.leaf (plain 3 (some false) true defaultUnits),
      .leaf (plain 3 (some true) true defaultUnits),
      .comp (flagged 1 true c.units),
      .comp (flagged 2 false d.units)]) := by
    rw [Compose.setItem_eq (c := c) (o := .leaf (plain 3 (some true) true defaultUnits)) (rs := [1]) rfl rfl
      (by show 3 = c.dim; rw [hcd'])
      (fun i hi => by injection hi with hi; exact hi.symm) (by
        simp only [assign, pyIndex, hc]; rfl)]
    have er : recompute (h1.set 2 (.comp { c with members := [1] })) (m + 2) { c with members := [1] } =
        (.ok (), (flagged 1 true c.units)) := by
      rw [show flagged 1 true c.units = { flagged 1 true c.units with dim := c.dim } by rw [hcd']; rfl]; rfl
    rw [er]; rfl
  refine ⟨h, flagged 2 false d.units, [1], k2, ?_⟩
  simp only [exec, e1, e2]
  refine ⟨rfl, rfl, ⟨_, rfl⟩, rfl, ?_, ?_, ?_⟩
  · refine .comp (c := _) rfl (LeavesL.cons (a := [1]) (b := []) (.comp (c := _) rfl
      (LeavesL.cons (a := [1]) (b := []) (.leaf (l := plain 3 (some true) true defaultUnits) rfl) .nil)) .nil)
  · exact ⟨1, by simp, _, rfl, rfl⟩
  · intro f R z t v n
    cases n with
    | zero => exact fun q => by cases f <;> cases q
    | succ n =>
      cases n with
      | zero => exact fun q => by cases f <;> cases q
      | succ n =>
        cases n with
        | zero => exact fun q => by cases f <;> cases q
        | succ n => exact fun q => by cases f <;> cases q

/-- Scaling a combination whose first item was replaced can raise: item 0 is assigned without a unit check,
and the new combination is checked. So `k * c` does not always have a value (C07). -/
theorem C07_after_assignment_fails (m : Nat) (k : ℝ) : ∃ (h : Heap) (a : Ref) (c : Comp), Reachable m h ∧
    h[a]? = some (.comp c) ∧ ∀ n r h', Compose.mul n a (some k) h ≠ (.ok r, h') := by
  let u : Units := ⟨8, 220, true, true⟩
  let w : Units := ⟨1, 220, true, true⟩
  let x := plain 3 (some false) true u
  let y := plain 3 (some false) true w
  have r1 : Reachable m [.leaf x, .leaf y] := .step (.new y) (.step (.new x) .start (plain_valid3 _ _ _)) (plain_valid3 _ _ _)
  obtain ⟨c, e, hc, hcd, -⟩ := mkComp_total r1.wf (n := m) (dim := 3) (rs := [0, 0]) (by simp)
    (by
      intro r hr
      simp only [List.mem_cons, List.not_mem_nil, or_false, or_self] at hr
      subst hr
      exact ⟨x, rfl, rfl⟩)
    (by
      intro s hs o p ho hp
      simp only [List.mem_singleton] at hs
      subst hs
      simp only [List.getElem?_cons_zero, Option.some.injEq] at ho hp
      subst ho hp
      simp only [compatible, sub_self, zero_div, abs_zero]
      norm_num)
  have r2 : Reachable m [.leaf x, .leaf y, .comp c] := by
    have := Reachable.step (.combine 3 ([0, 0].map Val.ref)) r1 (by simp [Safe])
    rw [exec, e] at this
    exact this
  have es := Compose.setItem_eq (n := m + 1) (h := [.leaf x, .leaf y, .comp c]) (a := 2) (r := 1) (c := c) (o := .leaf y)
    (k := .int 0) (rs := [1, 0]) rfl rfl (by show 3 = c.dim; rw [hcd])
    (fun i hi => by injection hi with hi; exact hi.symm) (by simp only [assign, pyIndex, hc]; rfl)
  have R := recompute_ok (n := m) (h := [.leaf x, .leaf y, .comp { c with members := [1, 0] }])
    (c := { c with members := [1, 0] }) (.inr hcd) (by
      intro r hr
      simp only [List.mem_cons, List.not_mem_nil, or_false] at hr
      rcases hr with rfl | rfl
      · exact ⟨y, rfl, hcd.symm, rfl⟩
      · exact ⟨x, rfl, hcd.symm, rfl⟩)
  have r3 := Reachable.step (.set 2 (.int 0) (.ref 1)) r2 ⟨fun d hd => by
    injection hd with hd
    injection hd with hd
    rw [← hd, hcd]; simp, .inr fun r hr d hd => by
    injection hr with hr
    subst hr
    cases hd⟩
  rw [exec, es] at r3
  refine ⟨_, 2, _, r3, rfl, ?_⟩
  intro n r h' em
  have cp := C07_combination_needs r3 (a := 2) rfl em
  have hm : (recompute (List.set [Obj.leaf x, Obj.leaf y, Obj.comp c] 2 (.comp { c with members := [1, 0] })) (m + 1)
        { c with members := [1, 0] }).2.members = [1, 0] := R.2.2.1
  rw [hm] at cp
  have := (cp 0 (by simp) (.leaf y) (.leaf x) rfl rfl).1 rfl rfl
  simp only [Obj.units, x, y, u, w, plain] at this
  norm_num at this

/-- Non-vacuity of `C09_flags_partial`: replacing the member of a combination by a non-axisymmetric one is a
session step, and the flag follows. -/
example (m : Nat) : ∃ (h : Heap) (c : Comp), Reachable m h ∧ h[2]? = some (.comp c) ∧ c.members = [1] ∧
    c.nonAxi = some true := by
  obtain ⟨c, hc, hcd, -, k⟩ := Compose.plainSession m (plain 3 (some false) true defaultUnits)
    (plain 3 (some true) true defaultUnits) (plain_valid3 _ _ _) (plain_valid3 _ _ _)
  have hcd' : c.dim = 3 := hcd
  have e := Compose.setItem_eq (n := m + 1) (h := [.leaf (plain 3 (some false) true defaultUnits),
    .leaf (plain 3 (some true) true defaultUnits), .comp c]) (a := 2) (r := 1) (c := c)
    (o := .leaf (plain 3 (some true) true defaultUnits)) (rs := [1]) (k := .int 0) rfl rfl
    (by show 3 = c.dim; rw [hcd'])
    (fun i hi => by injection hi with hi; exact hi.symm) (by simp only [assign, pyIndex, hc]; rfl)
  have r := Reachable.step (.set 2 (.int 0) (.ref 1)) k ⟨fun d hd => by
    injection hd with hd
    injection hd with hd
    rw [← hd, hcd']; simp, .inr fun r hr d hd => by
    injection hr with hr
    subst hr
    cases hd⟩
  rw [exec, e] at r
  exact ⟨_, _, r, rfl, rfl, rfl⟩

end Verif

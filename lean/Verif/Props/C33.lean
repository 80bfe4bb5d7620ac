import Verif.Props.C09

set_option autoImplicit false

/-! # C33: `turn_physical_on/off` on combinations -/

noncomputable section
namespace Verif
open Compose

theorem Compose.physical_leaf {f : Units → Units} {n : Nat} {h : Heap} {r : Ref} {l : Leaf} (k : IsLeaf h r l) :
    physical f (n + 1) r h = setUnits f h r := by
  have k' : h[r]? = some (.leaf l) := k
  simp only [physical, k']

theorem Compose.fold_physical {f : Units → Units} (ff : ∀ u, f (f u) = f u) {n : Nat} : ∀ (rs : List Ref) (h : Heap),
    (∀ s ∈ rs, ∃ l, IsLeaf h s l) → ∀ s : Ref,
      (rs.foldl (fun h r => physical f (n + 1) r h) h)[s]? =
        (h[s]?).map fun o => if s ∈ rs then o.mapUnits f else o
  | [], h, _, s => by
    rw [List.foldl_nil]
    cases h[s]? <;> simp
  | r :: rs, h, k, s => by
    obtain ⟨l, hl⟩ := k r (by simp)
    rw [List.foldl_cons, Compose.physical_leaf hl, Compose.fold_physical ff rs, setUnits_get]
    · cases hs : h[s]? with
      | none => rfl
      | some o =>
        simp only [Option.map_some]
        by_cases h1 : s = r
        · have hm : s ∈ r :: rs := by simp [h1]
          rw [if_pos h1, if_pos hm]
          by_cases h2 : s ∈ rs
          · rw [if_pos h2]
            cases o with
            | leaf l => simp only [Obj.mapUnits, ff]
            | comp c => simp only [Obj.mapUnits, ff]
          · rw [if_neg h2]
        · rw [if_neg h1]
          by_cases h2 : s ∈ rs
          · rw [if_pos h2, if_pos (by simp [h2])]
          · rw [if_neg h2, if_neg (by simp [h1, h2])]
    · intro s' hs'
      obtain ⟨l', hl'⟩ := k s' (by simp [hs'])
      obtain ⟨l'', hl'', -⟩ := (UnitsOnly.setUnits f h r).ext s' l' hl'
      exact ⟨l'', hl''⟩

/-- The new units of the combination and of every member. -/
theorem Compose.physical_comp {f : Units → Units} (ff : ∀ u, f (f u) = f u) {n : Nat} {h : Heap} (w : WF h) {a : Ref}
    {c : Comp} (ha : h[a]? = some (.comp c)) :
    (physical f (n + 2) a h)[a]? = some (.comp { c with units := f c.units }) ∧
      ∀ s ∈ c.members, ∀ l, IsLeaf h s l → IsLeaf (physical f (n + 2) a h) s { l with units := f l.units } := by
  have e : physical f (n + 2) a h = c.members.foldl (fun h r => physical f (n + 1) r h) (setUnits f h a) := by
    rw [physical]
    simp only [ha]
  have k : ∀ s ∈ c.members, ∃ l, IsLeaf (setUnits f h a) s l := fun s hs => by
    obtain ⟨l, hl⟩ := members_leaf w ha s hs
    obtain ⟨l', hl', -⟩ := (UnitsOnly.setUnits f h a).ext s l hl
    exact ⟨l', hl'⟩
  rw [e]
  constructor
  · rw [Compose.fold_physical ff c.members _ k, setUnits_get, ha]
    have : a ∉ c.members := fun q => by
      obtain ⟨l, hl⟩ := members_leaf w ha a q
      unfold IsLeaf at hl
      rw [ha] at hl; cases hl
    simp [this, Obj.mapUnits]
  · intro s hs l hl
    have hl' : h[s]? = some (.leaf l) := hl
    have hne : s ≠ a := fun q => by
      rw [q, ha] at hl'; cases hl'
    unfold IsLeaf
    rw [Compose.fold_physical ff c.members _ k, setUnits_get, hl']
    simp [hs, hne, Obj.mapUnits]

/-- Right after `turn_physical_off` the combination and every member report no units; everything else
(members, flags, values) is unchanged. -/
theorem C33_off_partial {m n : Nat} {h : Heap} (k : Reachable m h) {a : Ref} {c : Comp}
    (ha : h[a]? = some (.comp c)) :
    ∃ u : Units, (exec (n + 2) h (.physicalOff a))[a]? = some (.comp { c with units := u }) ∧
      u.roSet = false ∧ u.voSet = false ∧
      ∀ s ∈ c.members, ∀ l, IsLeaf h s l → ∃ u' : Units,
        IsLeaf (exec (n + 2) h (.physicalOff a)) s { l with units := u' } ∧ u'.roSet = u.roSet ∧ u'.voSet = u.voSet := by
  obtain ⟨p, q⟩ := Compose.physical_comp (f := Units.off) (fun _ => rfl) (n := n) k.wf ha
  exact ⟨c.units.off, p, rfl, rfl, fun s hs l hl => ⟨l.units.off, q s hs l hl, rfl, rfl⟩⟩

/-- Right after `turn_physical_on` with neither `ro=False` nor `vo=False` the combination and every member
report units, with the given scales if scales were given. -/
theorem C33_on_partial {m n : Nat} {h : Heap} (k : Reachable m h) {a : Ref} {c : Comp}
    (ha : h[a]? = some (.comp c)) {ro vo : UArg} (hro : ro ≠ .no) (hvo : vo ≠ .no) :
    ∃ u : Units, (exec (n + 2) h (.physicalOn a ro vo))[a]? = some (.comp { c with units := u }) ∧
      u.roSet = true ∧ u.voSet = true ∧ (∀ x, ro = .value x → u.ro = x) ∧ (∀ x, vo = .value x → u.vo = x) ∧
      ∀ s ∈ c.members, ∀ l, IsLeaf h s l → ∃ u' : Units,
        IsLeaf (exec (n + 2) h (.physicalOn a ro vo)) s { l with units := u' } ∧ u'.roSet = u.roSet ∧
        u'.voSet = u.voSet ∧ (∀ x, ro = .value x → u'.ro = x) ∧ (∀ x, vo = .value x → u'.vo = x) := by
  have ff : ∀ u : Units, (u.on ro vo).on ro vo = u.on ro vo := by
    intro u
    cases ro <;> cases vo <;> rfl
  obtain ⟨p, q⟩ := Compose.physical_comp (f := fun u => u.on ro vo) ff (n := n) k.wf ha
  have st : ∀ u : Units, (u.on ro vo).roSet = true ∧ (u.on ro vo).voSet = true ∧
      (∀ x, ro = .value x → (u.on ro vo).ro = x) ∧ (∀ x, vo = .value x → (u.on ro vo).vo = x) := by
    intro u
    refine ⟨?_, ?_, ?_, ?_⟩
    · cases ro <;> simp_all [Units.on]
    · cases vo <;> simp_all [Units.on]
    · rintro x rfl; rfl
    · rintro x rfl; rfl
  obtain ⟨a1, a2, a3, a4⟩ := st c.units
  refine ⟨c.units.on ro vo, p, a1, a2, a3, a4, fun s hs l hl => ?_⟩
  obtain ⟨b1, b2, b3, b4⟩ := st l.units
  exact ⟨l.units.on ro vo, q s hs l hl, b1.trans a1.symm, b2.trans a2.symm, b3, b4⟩

/-- The status is not kept by item assignment: after `turn_physical_off` and assigning an object with units
to item 0, the combination has no units but its member has. -/
theorem C33_history_fails (m : Nat) : ∃ (h : Heap) (c : Comp) (s : Ref) (l : Leaf), Reachable (m + 1) h ∧
    (let h' := exec (m + 2) (exec (m + 2) h (.physicalOff 2)) (.set 2 (.int 0) (.ref 1));
      Reachable (m + 1) h' ∧ h'[2]? = some (.comp c) ∧ s ∈ c.members ∧ IsLeaf h' s l ∧
      c.units.roSet = false ∧ l.units.roSet = true) := by
  let y := plain 3 (some false) true ⟨8, 220, true, true⟩
  let x := plain 3 (some false) true defaultUnits
  obtain ⟨c, hc, hcd, hu, k⟩ := Compose.plainSession (m + 1) x y (plain_valid3 _ _ _) (plain_valid3 _ _ _)
  have hcd' : c.dim = 3 := hcd
  have e1 : exec (m + 2) [.leaf x, .leaf y, .comp c] (.physicalOff 2) =
      [.leaf { x with units := x.units.off }, .leaf y, .comp { c with units := c.units.off }] := by
    rw [exec, physical]
    exact (congrArg (fun ms => List.foldl (fun h r => physical (fun x => x.off) (m + 1) r h)
      (setUnits (fun x => x.off) [.leaf x, .leaf y, .comp c] 2) ms) hc).trans rfl
  have k1 := Reachable.step (.physicalOff 2) k trivial
  rw [e1] at k1
  have e2 := Compose.setItem_eq (n := m + 2) (h := [.leaf { x with units := x.units.off }, .leaf y,
    .comp { c with units := c.units.off }]) (a := 2) (r := 1) (c := { c with units := c.units.off }) (o := .leaf y)
    (rs := [1]) (k := .int 0) rfl rfl (by show 3 = c.dim; rw [hcd'])
    (fun i hi => by injection hi with hi; exact hi.symm) (by simp only [assign, pyIndex, hc]; rfl)
  have k2 := Reachable.step (.set 2 (.int 0) (.ref 1)) k1 ⟨fun d hd => by
    injection hd with hd
    injection hd with hd
    rw [← hd]
    show c.dim ≠ 1
    rw [hcd']; simp, .inr fun r hr d hd => by
    injection hr with hr
    subst hr
    cases hd⟩
  rw [exec, e2] at k2
  refine ⟨_, (recompute [.leaf { x with units := x.units.off }, .leaf y,
    .comp { { c with units := c.units.off } with members := [1] }] (m + 2)
    { { c with units := c.units.off } with members := [1] }).2, 1, y, k, ?_⟩
  simp only [e1]
  rw [exec, e2]
  exact ⟨k2, rfl, List.mem_singleton.2 rfl, rfl, rfl, rfl⟩

/-- Turning units on and then off reaches both members of an actual session. -/
example (m n : Nat) : ∃ h : Heap, Reachable m h ∧ ∃ c : Comp, h[2]? = some (.comp c) ∧ c.members = [0] ∧
    (∃ l, IsLeaf (exec (n + 2) h (.physicalOn 2 (.value 9) .keep)) 0 l ∧ l.units.ro = 9 ∧ l.units.roSet = true) ∧
    ∃ l, IsLeaf (exec (n + 2) h (.physicalOff 2)) 0 l ∧ l.units.roSet = false := by
  obtain ⟨c, hc, -, -, k⟩ := Compose.plainSession m (plain 3 (some false) true ⟨8, 220, true, true⟩)
    (plain 3 (some false) true defaultUnits) (plain_valid3 _ _ _) (plain_valid3 _ _ _)
  refine ⟨_, k, c, rfl, hc, ?_, ?_⟩
  · obtain ⟨u, -, h1, -, -, -, h2⟩ := C33_on_partial (n := n) k (a := 2) (c := c) rfl
      (ro := .value 9) (vo := .keep) nofun nofun
    obtain ⟨u', q, q1, -, q2, -⟩ := h2 0 (by rw [hc]; simp) _ rfl
    exact ⟨_, q, q2 9 rfl, q1.trans h1⟩
  · obtain ⟨u, -, h1, -, h2⟩ := C33_off_partial (n := n) k (a := 2) (c := c) rfl
    obtain ⟨u', q, q1, -⟩ := h2 0 (by rw [hc]; simp) _ rfl
    exact ⟨_, q, q1.trans h1⟩

end Verif

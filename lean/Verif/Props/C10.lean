import Verif.Props.C09

set_option autoImplicit false

/-! # C10: a missing azimuth or velocity is never silently defaulted

About the module-level functions `evaluatePotentials`, `evaluateRforces`, ... -/

noncomputable section
namespace Verif
open Compose

/-- What an evaluation without enough arguments means: `φ` is missing and some single object inside is
non-axisymmetric, or a force is asked for, the velocity is missing and some single object inside is
dissipative. -/
def Lacking (h : Heap) (f : Fn) (φ : Option ℝ) (v : Option Vel) (ls : List Ref) : Prop :=
  (φ = none ∧ ∃ s ∈ ls, ∃ l, IsLeaf h s l ∧ l.nonAxi = some true) ∨
    (v = none ∧ f.isForce = true ∧ ∃ s ∈ ls, ∃ l, IsLeaf h s l ∧ l.dissipative = true)

theorem Compose.flags_of {m : Nat} {h : Heap} (k : Reachable m h) {r : Ref} {o : Obj} (hr : h[r]? = some o)
    (hd : o.dim ≠ 1) {ls : List Ref} (K : Leaves h r ls) :
    ∃ b, o.nonAxi = some b ∧ (b = true ↔ ∃ s ∈ ls, ∃ l, IsLeaf h s l ∧ l.nonAxi = some true) ∧
      (o.dissipative = true ↔ ∃ s ∈ ls, ∃ l, IsLeaf h s l ∧ l.dissipative = true) := by
  have el := K.eq_leavesOf k.wf
  cases o with
  | leaf l =>
    have : ls = [r] := by rw [el]; simp [leavesOf, hr]
    subst this
    have hn : l.nonAxi.isSome := by
      rcases k.wf.leaf r l hr with ⟨q, -⟩ | ⟨-, q⟩
      · exact absurd q hd
      · exact q
    obtain ⟨b, hb⟩ := Option.isSome_iff_exists.1 hn
    refine ⟨b, hb, ?_, ?_⟩
    · constructor
      · rintro rfl; exact ⟨r, by simp, l, hr, hb⟩
      · rintro ⟨s, hs, l', hl', q⟩
        rw [List.mem_singleton] at hs
        subst hs
        rw [isLeaf_unique hl' hr, hb] at q
        injection q
    · constructor
      · intro q; exact ⟨r, by simp, l, hr, q⟩
      · rintro ⟨s, hs, l', hl', q⟩
        rw [List.mem_singleton] at hs
        subst hs
        rw [isLeaf_unique hl' hr] at q
        exact q
  | comp c =>
    have : ls = c.members := by rw [el]; simp [leavesOf, hr]
    subst this
    have ok := k.wf.comp r c hr
    obtain ⟨b, hb, hb'⟩ := ok.nonAxi hd
    exact ⟨b, hb, hb', ok.dissipative⟩

/-- Evaluation without the azimuth or velocity that some member needs raises `PotentialError`; for every
object of every session state, every function and every choice of supplied arguments. -/
theorem C10_raises {m : Nat} {h : Heap} (k : Reachable m h) {r : Ref} {o : Obj} (hr : h[r]? = some o)
    (hd : o.dim ≠ 1) {ls : List Ref} (K : Leaves h r ls) (f : Fn) (R z t : ℝ) (φ : Option ℝ) (v : Option Vel)
    (n : Nat) (lack : Lacking h f φ v ls) : evaluate h f r R z φ t v n = .error .potentialError := by
  obtain ⟨b, hb, hb1, hb2⟩ := Compose.flags_of k hr hd K
  unfold evaluate
  simp only [hr, hb]
  rcases lack with ⟨rfl, q⟩ | ⟨rfl, hf, q⟩
  · rw [hb1.2 q]; rfl
  · split
    · rfl
    · rw [hf, hb2.2 q]; rfl

/-- Otherwise evaluation returns a value, the sum of the members' contributions: nothing is defaulted that
matters. (A single dissipative force has no potential to evaluate.) -/
theorem C10_returns {m : Nat} {h : Heap} (k : Reachable m h) {r : Ref} {o : Obj} (hr : h[r]? = some o)
    (hd : o.dim ≠ 1) {ls : List Ref} (K : Leaves h r ls) (f : Fn) (R z t : ℝ) (φ : Option ℝ) (v : Option Vel)
    (n : Nat) (enough : ¬ Lacking h f φ v ls)
    (single : ∀ l, o = .leaf l → l.dissipative = true → f.isForce = true) :
    evaluate h f r R z φ t v (n + 2) =
      .ok (ls.map (contrib h f R z (φ.getD 0) t (v.getD (0, 0, 0)))).sum := by
  obtain ⟨b, hb, hb1, hb2⟩ := Compose.flags_of k hr hd K
  have el := K.eq_leavesOf k.wf
  have en : Enough h f φ v r := by
    rw [Enough, ← el]
    constructor
    · intro hφ s hs l hl q
      exact enough (.inl ⟨hφ, s, hs, l, hl, q⟩)
    · intro hv hf s hs l hl
      cases hdd : l.dissipative with
      | false => rfl
      | true => exact absurd (.inr ⟨hv, hf, s, hs, l, hl, hdd⟩) enough
  unfold evaluate
  simp only [hr, hb]
  rw [if_neg, if_neg]
  · rw [el]
    cases o with
    | leaf l => exact call_single hr (single l rfl) en
    | comp c => exact call_comp k.wf hr en
  · intro q
    simp only [Bool.and_eq_true, Option.isNone_iff_eq_none] at q
    exact enough (.inr ⟨q.2, q.1.1, hb2.1 q.1.2⟩)
  · intro q
    simp only [Bool.and_eq_true, Option.isNone_iff_eq_none] at q
    exact enough (.inl ⟨q.2, hb1.1 q.1⟩)

/-- `PotentialError` is raised exactly when an argument that some member needs is missing. -/
theorem C10_iff {m : Nat} {h : Heap} (k : Reachable m h) {r : Ref} {o : Obj} (hr : h[r]? = some o)
    (hd : o.dim ≠ 1) {ls : List Ref} (K : Leaves h r ls) (f : Fn) (R z t : ℝ) (φ : Option ℝ) (v : Option Vel)
    (n : Nat) (single : ∀ l, o = .leaf l → l.dissipative = true → f.isForce = true) :
    evaluate h f r R z φ t v (n + 2) = .error .potentialError ↔ Lacking h f φ v ls := by
  constructor
  · intro e
    by_contra q
    rw [C10_returns k hr hd K f R z t φ v n q single] at e
    cases e
  · exact C10_raises k hr hd K f R z t φ v _

/-- Non-vacuity: a combination with a non-axisymmetric member raises without `phi`. -/
example (m : Nat) : ∃ (h : Heap) (c : Comp), Reachable m h ∧ h[2]? = some (.comp c) ∧
    evaluate h .Rforce 2 1 0 none 0 none 2 = .error .potentialError ∧
    ∃ x, evaluate h .Rforce 2 1 0 (some 0) 0 none 2 = .ok x := by
  obtain ⟨c, hc, hcd, -, k⟩ := Compose.plainSession m (plain 3 (some true) true defaultUnits)
    (plain 3 (some true) true defaultUnits) (plain_valid3 _ _ _) (plain_valid3 _ _ _)
  have hcd' : c.dim = 3 := hcd
  set h : Heap := [.leaf (plain 3 (some true) true defaultUnits), .leaf (plain 3 (some true) true defaultUnits),
    .comp c]
  have l0 : IsLeaf h 0 (plain 3 (some true) true defaultUnits) := rfl
  have K : Leaves h 2 [0] := .comp (c := c) rfl (by
    rw [hc]; exact LeavesL.cons (a := [0]) (b := []) (.leaf l0) .nil)
  have hd : (Obj.comp c).dim ≠ 1 := by show c.dim ≠ 1; omega
  refine ⟨h, c, k, rfl, C10_raises k rfl hd K _ _ _ _ _ _ _ (.inl ⟨rfl, 0, by simp, _, l0, rfl⟩), _,
    C10_returns k rfl hd K _ _ _ _ _ _ 0 ?_ (fun l q => by cases q)⟩
  rintro (⟨q, -⟩ | ⟨-, -, s, hs, l, hl, q⟩)
  · cases q
  · rw [List.mem_singleton] at hs
    subst hs
    rw [isLeaf_unique hl l0] at q
    cases q

end Verif

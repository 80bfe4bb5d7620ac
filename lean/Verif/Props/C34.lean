import Verif.Props.C09

set_option autoImplicit false

/-! # C34: incompatible units are rejected -/

noncomputable section
namespace Verif
open Compose

/-- Two scales that are both set and differ by a relative amount of at least the tolerance. -/
def Clash (u w : Units) : Prop :=
  (u.roSet = true ∧ w.roSet = true ∧ 1e-8 ≤ |u.ro - w.ro| / |u.ro|) ∨
    (u.voSet = true ∧ w.voSet = true ∧ 1e-8 ≤ |u.vo - w.vo| / |u.vo|)

theorem C34_compatible_iff (u w : Units) : compatible u w ↔ ¬ Clash u w := by
  unfold compatible Clash
  rw [abs_div, abs_div, not_or, not_and, not_and, not_and, not_and, not_le, not_le]

/-- Reflexive. -/
theorem C34_reflexive (u : Units) : compatible u u := by
  constructor <;> (intros; simp only [sub_self, zero_div, abs_zero]; norm_num)

/-- Scales that are not both set are compatible, in both directions. -/
theorem C34_unset (u w : Units) (h1 : u.roSet = false ∨ w.roSet = false) (h2 : u.voSet = false ∨ w.voSet = false) :
    compatible u w ∧ compatible w u := by
  refine ⟨⟨fun a b => ?_, fun a b => ?_⟩, ⟨fun a b => ?_, fun a b => ?_⟩⟩ <;> simp_all

/-- The relation is not symmetric: the difference is measured relative to the first operand. With
`ro = 1` and `ro = 1 + 1e-8` the combination is accepted in one order and rejected in the other. -/
theorem C34_symmetric_fails : ∃ u w : Units, compatible u w ∧ ¬ compatible w u := by
  refine ⟨⟨1 + 1e-8, 1, true, true⟩, ⟨1, 1, true, true⟩, ⟨fun _ _ => ?_, fun _ _ => ?_⟩, fun q => ?_⟩
  · norm_num
  · norm_num
  · have := q.1 rfl rfl
    norm_num at this

/-- Nor transitive. -/
theorem C34_transitive_fails : ∃ u v w : Units, compatible u v ∧ compatible v w ∧ ¬ compatible u w := by
  refine ⟨⟨1, 1, true, true⟩, ⟨1 + 6e-9, 1, true, true⟩, ⟨1 + 12e-9, 1, true, true⟩, ⟨fun _ _ => ?_, fun _ _ => ?_⟩,
    ⟨fun _ _ => ?_, fun _ _ => ?_⟩, fun q => ?_⟩
  · norm_num
  · norm_num
  · norm_num
  · norm_num
  · have := q.1 rfl rfl
    norm_num at this

theorem Compose.swap_tol {a b : ℝ} (ha : a ≠ 0) (h : |(a - b) / a| < 1e-8) : |(b - a) / b| < 1e-8 / (1 - 1e-8) := by
  have pa : 0 < |a| := abs_pos.2 ha
  rw [abs_div, div_lt_iff₀ pa] at h
  have h1 : |a| ≤ |a - b| + |b| := by
    calc |a| = |(a - b) + b| := by ring_nf
      _ ≤ _ := abs_add_le _ _
  have hb : (1 - 1e-8) * |a| < |b| := by linarith
  have pb : 0 < |b| := lt_trans (by positivity) hb
  rw [abs_div, abs_sub_comm, div_lt_iff₀ pb, div_mul_eq_mul_div, lt_div_iff₀ (by norm_num)]
  nlinarith

/-- Symmetry holds up to the tolerance: what is missing from symmetry is the factor `1/(1 - 1e-8)`. -/
theorem C34_symmetric_partial {u w : Units} (hr : u.ro ≠ 0) (hv : u.vo ≠ 0) (h : compatible u w) :
    (w.roSet = true → u.roSet = true → |(w.ro - u.ro) / w.ro| < 1e-8 / (1 - 1e-8)) ∧
      (w.voSet = true → u.voSet = true → |(w.vo - u.vo) / w.vo| < 1e-8 / (1 - 1e-8)) :=
  ⟨fun a b => Compose.swap_tol hr (h.1 b a), fun a b => Compose.swap_tol hv (h.2 b a)⟩

/-- Constructor: when some member's units clash with those of the first member nothing is constructed;
if flattening and dimensions are fine the exception is `AssertionError`. -/
theorem C34_construct {n dim : Nat} {args : List Val} {h : Heap} {r s : Ref} {rs : List Ref} {o p : Obj}
    (fl : flattenVals h n args = .ok ((r :: rs).map some)) (hs : s ∈ rs) (ho : h[r]? = some o) (hp : h[s]? = some p)
    (cl : Clash o.units p.units) (hd : ∀ x ∈ r :: rs, HasDim h x dim) :
    mkComp n dim args h = (.error .assertionError, h) := by
  unfold mkComp
  simp only [fl, mapM_some]
  rw [if_neg, if_pos]
  · intro q
    exact (C34_compatible_iff _ _).1 (q s hs o p ho hp) cl
  · rintro ⟨x, hx, k⟩
    obtain ⟨y, hy, hd'⟩ := hd x hx
    exact k y hy hd'

/-- The same without the side conditions: construction never succeeds. -/
theorem C34_construct_never {n dim : Nat} {args : List Val} {h : Heap} {r s : Ref} {rs : List Ref} {o p : Obj}
    (al : ArgsLeaves h args (r :: rs)) (hs : s ∈ rs) (ho : h[r]? = some o) (hp : h[s]? = some p)
    (cl : Clash o.units p.units) : ∀ x h', mkComp n dim args h ≠ (.ok x, h') := by
  intro x h' e
  unfold mkComp at e
  cases e1 : flattenVals h n args with
  | error x => rw [e1] at e; cases e
  | ok vs =>
    rw [e1] at e
    simp only at e
    cases e2 : vs.mapM id with
    | none => rw [e2] at e; cases e
    | some ls =>
      rw [e2] at e
      simp only at e
      split at e
      · cases e
      · split at e
        · cases e
        · rename_i q
          have al' := Compose.flattenVals_leaves args e1 (Compose.mapM_id_eq e2)
          have : ls = r :: rs := ArgsLeaves.unique al' al
          subst this
          exact (C34_compatible_iff _ _).1 (not_not.1 q s hs o p ho hp) cl

/-- `a + b` of two single objects of one dimension with clashing units never succeeds. -/
theorem C34_add {m n : Nat} {h : Heap} (_k : Reachable m h) {a b : Ref} {l l' : Leaf} (ha : IsLeaf h a l) (hb : IsLeaf h b l')
    (hd : l.dim = l'.dim) (cl : Clash l.units l'.units) : ∀ r h', Compose.add n a (.ref b) h ≠ (.ok r, h') := by
  intro r h' e
  have ha' : h[a]? = some (.leaf l) := ha
  have hb' : h[b]? = some (.leaf l') := hb
  have al : ArgsLeaves h [.ref a, .ref b] [a, b] :=
    ArgsLeaves.cons (a := [a]) (b := [b]) (.ref (.leaf ha)) (ArgsLeaves.cons (a := [b]) (b := []) (.ref (.leaf hb)) .nil)
  have no : ∀ dim, mkComp n dim [.ref a, .ref b] h ≠ (.ok r, h') := fun dim =>
    C34_construct_never al (s := b) (by simp) ha' hb' cl r h'
  have vd : valDim h (.ref b) = some l.dim := by simp [valDim, hb', Obj.dim, hd]
  unfold Compose.add at e
  rw [ha'] at e
  simp only [vd] at e
  split at e
  · cases e
  · split at e
    · split at e
      · cases e
      · split at e
        · cases e
        · exact no _ e
    · split at e
      · cases e
      · split at e
        · rename_i q
          split at e
          · rename_i q'; injection q' with q'; omega
          · exact no _ e
        · split at e
          · cases e
          · split at e
            · rename_i q'; injection q' with q'; omega
            · exact no _ e

/-- A combination plus anything whose units clash with the combination's is rejected with an
`AssertionError` (or a `TypeError` for the wrong dimension) and nothing changes. -/
theorem C34_add_combination {n : Nat} {h : Heap} {a b : Ref} {c : Comp} {o : Obj} (ha : h[a]? = some (.comp c))
    (hb : h[b]? = some o) (cl : Clash c.units o.units) :
    Compose.add n a (.ref b) h = (.error .assertionError, h) ∨ Compose.add n a (.ref b) h = (.error .typeError, h) := by
  unfold Compose.add
  simp only [ha, hb]
  split
  · exact .inr rfl
  · rw [if_pos (fun q => (C34_compatible_iff _ _).1 q cl)]
    exact .inl rfl

/-- Non-vacuity: two objects with `ro = 8` and `ro = 8.5` cannot be added. -/
example (m n : Nat) : ∃ h : Heap, Reachable m h ∧ ∀ r h', Compose.add n 0 (.ref 1) h ≠ (.ok r, h') := by
  let x := plain 3 (some false) true ⟨8, 220, true, true⟩
  let y := plain 3 (some false) true ⟨8.5, 220, true, true⟩
  have r1 : Reachable m [.leaf x, .leaf y] :=
    .step (.new y) (.step (.new x) .start (plain_valid3 _ _ _)) (plain_valid3 _ _ _)
  refine ⟨_, r1, C34_add r1 (l := x) (l' := y) rfl rfl rfl (.inl ⟨rfl, rfl, ?_⟩)⟩
  simp only [x, y, plain]
  norm_num [abs_of_neg]

end Verif

import Verif.Lemmas.StreamGap
import Verif.Props.C86
import Mathlib.Analysis.Real.Pi.Bounds

set_option autoImplicit false

/-!
# C87: streamgapdf is the kicked stream

A stream is kicked at time `timpact` before the present; stars stripped before were at `a - O t` at impact and had the frequency
`O - kick`, stars stripped after were not affected.  `pOparapar` says so.  The closed forms for density and mean frequency, which
sum error functions over the pieces of a piecewise-linear kick, are compared with integrals of it over all frequencies; those for
splines of higher order with the first-order expansion in what the linear pieces leave out.

What fails: the mean frequency of higher order has a term with the wrong sign, and the density computed without the approximation
is larger by `√(2π)`.
-/

noncomputable section
namespace Verif
open Real MeasureTheory Set Gauss StreamGap

namespace C87Spec

/-- Distribution of frequencies before the kick. -/
def G (p : Gap) (O : ℝ) : ℝ := exp (-((O - p.meandO) ^ 2) / (2 * p.e2)) / √p.e2

/-- A kick that is linear between equally spaced nodes (the spline of order one that the code builds on `linspace`), and that
nowhere turns the order of stars around: the later position `u + t (O + kick u)` of a star at `u` grows with `u`, also when its
frequency grows like `u`. -/
structure Regular (p : Gap) (w : ℝ) : Prop where
  e2 : 0 < p.e2
  t : 0 < p.timpact
  T : p.timpact < p.tdisrupt
  w0 : 0 < w
  x : ∀ i, p.x i = i * w
  delta : p.delta = p.n * w
  lin : ∀ i < p.n, ∀ u ∈ Icc (i * w) ((i + 1) * w), p.raw u = p.c 0 i + p.c 1 i * (u - i * w)
  mono : StrictMonoOn (fun u => u / p.timpact + p.raw u + u / (p.tdisrupt - p.timpact)) (Icc 0 (p.n * w))
  q : ∀ i < p.n, 1 + p.c 1 i * p.timpact ≠ 0

/-- An angle offset that stars stripped right at impact reach, kicked or not, and that stars at the far end of the stream at impact
do not reach. -/
structure Reach (p : Gap) (w a : ℝ) : Prop where
  a0 : 0 < a
  near : p.raw 0 < a / p.timpact
  far : (a - p.n * w) / p.timpact - p.raw (p.n * w) < p.n * w / (p.tdisrupt - p.timpact)
  far0 : (a - p.n * w) / p.timpact < p.n * w / (p.tdisrupt - p.timpact)

/-- First-order change of the distribution at frequency `O` due to the powers of two and more of the kick on interval `i`, `B` being
the frequency at its near end. -/
def change (p : Gap) (i : ℕ) (B O : ℝ) : ℝ :=
  let y := p.timpact * (B - O);
  deriv (fun ε => G p (O - (p.c 0 i + p.c 1 i * y + ε * ∑ m ∈ Finset.Ico 2 (p.splineOrder + 1), p.c m i * y ^ m))) 0

/-- A stream with a kick that falls and rises again. -/
def tent : Gap where
  meandO := 6
  e2 := 1
  e1 := 1 / 100
  e0 := 1 / 400
  tdisrupt := 10
  sigangle := 1 / 10
  timpact := 2
  delta := 10
  raw := fun u => |u - 5| / 10
  n := 10
  x := fun i => i
  c := fun m i => if m = 0 then |(i : ℝ) - 5| / 10 else if m = 1 then (if i < 5 then -1 / 10 else 1 / 10) else 0
  splineOrder := 1

theorem tent_regular : Regular tent 1 where
  e2 := by norm_num [tent]
  t := by norm_num [tent]
  T := by norm_num [tent]
  w0 := one_pos
  x := fun i => by simp [tent]
  delta := by norm_num [tent]
  lin := fun i hi u hu => by
    simp only [mul_one, mem_Icc] at hu
    simp only [tent, mul_one, if_true, one_ne_zero, if_false]
    split_ifs with h
    · have : (i : ℝ) + 1 ≤ 5 := by exact_mod_cast h
      rw [abs_of_nonpos (by linarith), abs_of_nonpos (by linarith)]
      ring
    · have : (5 : ℝ) ≤ i := by exact_mod_cast (not_lt.1 h)
      rw [abs_of_nonneg (by linarith), abs_of_nonneg (by linarith)]
      ring
  mono := fun u _ v _ h => by
    simp only [tent]
    have h1 := abs_sub_abs_le_abs_sub (u - 5) (v - 5)
    rw [show u - 5 - (v - 5) = u - v by ring, abs_of_neg (sub_neg.2 h)] at h1
    norm_num
    linarith
  q := fun i _ => by
    simp only [tent, one_ne_zero, if_false, if_true]
    split_ifs <;> norm_num

theorem tent_reach : Reach tent 1 3 where
  a0 := by norm_num
  near := by norm_num [tent]
  far := by norm_num [tent]
  far0 := by norm_num [tent]

end C87Spec

open C87Spec

namespace C87aux

variable {p : Gap} {w a : ℝ}

theorem G_eq (O : ℝ) : G p O = g p.meandO p.e2 O / √p.e2 := rfl
theorem G_pos (he : 0 < p.e2) (O : ℝ) : 0 < G p O := div_pos (exp_pos _) (sqrt_pos.2 he)
theorem G_cont : Continuous (G p) := by
  unfold G
  fun_prop

/-- Excess of the frequency before the kick over the one needed. -/
def H (p : Gap) (a u : ℝ) : ℝ := (a - u) / p.timpact - p.raw u - u / (p.tdisrupt - p.timpact)

theorem H_anti (h : Regular p w) : StrictAntiOn (H p a) (Icc 0 (p.n * w)) := by
  intro u hu v hv huv
  have := h.mono hu hv huv
  simp only at this
  unfold H
  have h1 : (a - u) / p.timpact = a / p.timpact - u / p.timpact := sub_div _ _ _
  have h2 : (a - v) / p.timpact = a / p.timpact - v / p.timpact := sub_div _ _ _
  linarith

/-- Numerator and denominator of `lowx`. -/
def N (p : Gap) (a : ℝ) (i : ℕ) : ℝ :=
  (Ob p a i - p.c 0 i) * (p.tdisrupt - p.timpact) + Ob p a i * p.timpact - a
def D (p : Gap) (i : ℕ) : ℝ := (p.tdisrupt - p.timpact) * (1 + p.c 1 i * p.timpact) + p.timpact

theorem lowx_eq (i : ℕ) : lowx p a p.tdisrupt i = N p a i / D p i := rfl

theorem H_lin (h : Regular p w) {i : ℕ} (hi : i < p.n) {u : ℝ} (hu : u ∈ Icc (i * w) ((i + 1) * w)) :
    (p.tdisrupt - p.timpact) * H p a u = N p a i - D p i * ((u - i * w) / p.timpact) := by
  have ht := h.t.ne'
  have hT : p.tdisrupt - p.timpact ≠ 0 := (sub_pos.2 h.T).ne'
  unfold H N D Ob
  rw [h.lin i hi u hu, h.x]
  field_simp
  ring

theorem node_mem (h : Regular p w) {i : ℕ} (hi : i ≤ p.n) : (i : ℝ) * w ∈ Icc 0 (p.n * w) := by
  have : (i : ℝ) ≤ p.n := by exact_mod_cast hi
  exact ⟨mul_nonneg (Nat.cast_nonneg i) h.w0.le, mul_le_mul_of_nonneg_right this h.w0.le⟩

theorem N_eq (h : Regular p w) {i : ℕ} (hi : i < p.n) : N p a i = (p.tdisrupt - p.timpact) * H p a (i * w) := by
  rw [H_lin h hi ⟨le_rfl, by nlinarith [h.w0]⟩]
  simp

theorem N_step (h : Regular p w) {i : ℕ} (hi : i < p.n) :
    (p.tdisrupt - p.timpact) * H p a ((i + 1 : ℕ) * w) = N p a i - D p i * (w / p.timpact) := by
  rw [H_lin h hi ⟨by push_cast; nlinarith [h.w0], by push_cast; exact le_rfl⟩]
  push_cast
  congr 3
  ring

theorem D_pos (h : Regular p w) {i : ℕ} (hi : i < p.n) : 0 < D p i := by
  have h1 := N_step (a := 0) h hi
  rw [N_eq h hi] at h1
  have h2 := H_anti (a := 0) h (node_mem h hi.le) (node_mem h (show i + 1 ≤ p.n from hi))
    (mul_lt_mul_of_pos_right (by push_cast; linarith) h.w0)
  have hT := sub_pos.2 h.T
  have h3 : 0 < D p i * (w / p.timpact) := by nlinarith
  exact pos_of_mul_pos_left h3 (div_pos h.w0 h.t).le

/-- The interval in which the slowest star was. -/
theorem exists_b (h : Regular p w) (r : Reach p w a) :
    ∃ b < p.n, (∀ i ≤ b, 0 ≤ H p a (i * w)) ∧ ∀ i, b < i → i ≤ p.n → H p a (i * w) < 0 := by
  classical
  have h0 : 0 < H p a ((0 : ℕ) * w) := by
    unfold H
    have := r.near
    simp only [Nat.cast_zero, zero_mul, sub_zero, zero_div]
    linarith
  have hn : H p a ((p.n : ℕ) * w) < 0 := by
    unfold H
    have := r.far
    linarith
  have hex : ∃ k, H p a ((k : ℕ) * w) < 0 := ⟨p.n, hn⟩
  have hk := Nat.find_spec hex
  have hle : Nat.find hex ≤ p.n := Nat.find_min' hex hn
  have hk0 : Nat.find hex ≠ 0 := by
    intro h1
    rw [h1] at hk
    linarith
  refine ⟨Nat.find hex - 1, by omega, fun i hi => ?_, fun i hi hin => ?_⟩
  · exact not_lt.1 (Nat.find_min hex (by omega))
  · rcases (show Nat.find hex ≤ i by omega).eq_or_lt with h1 | h1
    · rw [← h1]
      exact hk
    · refine lt_trans (H_anti h (node_mem h hle) (node_mem h hin) ?_) hk
      exact mul_lt_mul_of_pos_right (by exact_mod_cast h1) h.w0

theorem minRaw_eq (h : Regular p w) {b : ℕ} (hb : b < p.n)
    (hlo : ∀ i ≤ b, 0 ≤ H p a (i * w)) (hhi : ∀ i, b < i → i ≤ p.n → H p a (i * w) < 0) :
    minRaw p a p.tdisrupt p.n = some (b, lowx p a p.tdisrupt b) := by
  have hT := sub_pos.2 h.T
  have hwt : 0 < w / p.timpact := div_pos h.w0 h.t
  have lpos : ∀ i ≤ b, 0 ≤ lowx p a p.tdisrupt i := fun i hi => by
    rw [lowx_eq, N_eq h (by omega)]
    exact div_nonneg (mul_nonneg hT.le (hlo i hi)) (D_pos h (by omega)).le
  have lneg : ∀ i, b < i → i < p.n → lowx p a p.tdisrupt i < 0 := fun i hi hin => by
    rw [lowx_eq, N_eq h hin]
    exact div_neg_of_neg_of_pos (mul_neg_of_pos_of_neg hT (hhi i hi hin.le)) (D_pos h hin)
  have lbig : ∀ i < b, w / p.timpact ≤ lowx p a p.tdisrupt i := fun i hi => by
    have h1 := N_step (a := a) h (show i < p.n by omega)
    have h2 := mul_nonneg hT.le (hlo (i + 1) hi)
    rw [lowx_eq, le_div_iff₀ (D_pos h (by omega))]
    linarith
  have lb : lowx p a p.tdisrupt b < w / p.timpact := by
    have h1 := N_step (a := a) h hb
    have h2 := mul_neg_of_pos_of_neg hT (hhi (b + 1) (by omega) hb)
    rw [lowx_eq, div_lt_iff₀ (D_pos h hb)]
    linarith
  -- before `b`
  have before : ∀ m ≤ b, ∀ i v, minRaw p a p.tdisrupt m = some (i, v) → w / p.timpact ≤ v := by
    intro m
    induction m with
    | zero => intro _ i v h; simp [minRaw] at h
    | succ m ih =>
      intro hm i v hv
      rw [minRaw, if_neg (not_lt.2 (lpos m (by omega)))] at hv
      revert hv
      match hr : minRaw p a p.tdisrupt m with
      | none =>
        intro hv
        simp only [Option.some.injEq, Prod.mk.injEq] at hv
        rw [← hv.2]
        exact lbig m (by omega)
      | some (i', v') =>
        intro hv
        simp only at hv
        split_ifs at hv
        · simp only [Option.some.injEq, Prod.mk.injEq] at hv
          rw [← hv.2]
          exact lbig m (by omega)
        · simp only [Option.some.injEq, Prod.mk.injEq] at hv
          rw [← hv.2]
          exact ih (by omega) i' v' hr
  have at_b : minRaw p a p.tdisrupt (b + 1) = some (b, lowx p a p.tdisrupt b) := by
    rw [minRaw, if_neg (not_lt.2 (lpos b le_rfl))]
    match hr : minRaw p a p.tdisrupt b with
    | none => rfl
    | some (i', v') =>
      simp only
      rw [if_pos (lb.trans_le (before b le_rfl i' v' hr))]
  have after : ∀ k, b + 1 + k ≤ p.n → minRaw p a p.tdisrupt (b + 1 + k) = some (b, lowx p a p.tdisrupt b) := by
    intro k
    induction k with
    | zero => intro _; exact at_b
    | succ k ih =>
      intro hk
      rw [← add_assoc, minRaw, if_pos (lneg (b + 1 + k) (by omega) (by omega))]
      exact ih (by omega)
  have := after (p.n - (b + 1)) (by omega)
  rwa [show b + 1 + (p.n - (b + 1)) = p.n by omega] at this

/-- What `minRaw` finds: a root of `H`, in the interval it says. -/
theorem root (h : Regular p w) (r : Reach p w a) :
    ∃ b low, b < p.n ∧ minRaw p a p.tdisrupt p.n = some (b, low) ∧ 0 ≤ low ∧ p.timpact * low < w ∧
      H p a (b * w + p.timpact * low) = 0 ∧ 0 < b * w + p.timpact * low := by
  obtain ⟨b, hb, hlo, hhi⟩ := exists_b h r
  have hT := sub_pos.2 h.T
  have hD := D_pos h hb
  have h1 := N_step (a := a) h hb
  have h2 := mul_neg_of_pos_of_neg hT (hhi (b + 1) (by omega) hb)
  have l0 : 0 ≤ lowx p a p.tdisrupt b := by
    rw [lowx_eq, N_eq h hb]
    exact div_nonneg (mul_nonneg hT.le (hlo b le_rfl)) hD.le
  have l1 : p.timpact * lowx p a p.tdisrupt b < w := by
    have : lowx p a p.tdisrupt b < w / p.timpact := by
      rw [lowx_eq, div_lt_iff₀ hD]
      linarith
    rw [lt_div_iff₀ h.t] at this
    linarith
  have hz : H p a (b * w + p.timpact * lowx p a p.tdisrupt b) = 0 := by
    have := H_lin (a := a) h hb (u := b * w + p.timpact * lowx p a p.tdisrupt b)
      ⟨by nlinarith [mul_nonneg h.t.le l0], by linarith⟩
    have e : (b * w + p.timpact * lowx p a p.tdisrupt b - b * w) / p.timpact = lowx p a p.tdisrupt b := by
      rw [add_sub_cancel_left, mul_div_cancel_left₀ _ h.t.ne']
    rw [e, lowx_eq, mul_div_cancel₀ _ hD.ne', sub_self] at this
    exact (mul_eq_zero.1 this).resolve_left hT.ne'
  refine ⟨b, _, hb, minRaw_eq h hb hlo hhi, l0, l1, hz, ?_⟩
  have hb0 : 0 ≤ (b : ℝ) * w := mul_nonneg (Nat.cast_nonneg b) h.w0.le
  rcases (add_nonneg hb0 (mul_nonneg h.t.le l0)).eq_or_lt with h3 | h3
  · exfalso
    rw [← h3] at hz
    unfold H at hz
    have := r.near
    simp only [sub_zero, zero_div] at hz
    linarith
  · exact h3

/-- The smooth model before the impact. -/
theorem smooth_before (he : 0 < p.e2) {O u T : ℝ} (hu : 0 < u) (hT : 0 < T) :
    Stream.pOparapar p.toPar O u T = if u / T < O then G p O else 0 := by
  rw [Stream.pO_eq he hu hT]
  simp only [indicator, mem_Ioi]
  rfl

theorem gap_after (h : Regular p w) (r : Reach p w a) {O : ℝ} (hO : a / p.timpact < O) : StreamGap.pOparapar p O a = G p O := by
  have hO0 : 0 < O := (div_pos r.a0 h.t).trans hO
  have hlt : a / O < p.timpact := by
    rw [div_lt_iff₀ h.t] at hO
    rw [div_lt_iff₀ hO0]
    linarith
  have hT0 : 0 < p.tdisrupt := h.t.trans h.T
  unfold StreamGap.pOparapar
  simp only
  rw [if_pos ⟨hO0.ne', hlt, (div_pos r.a0 hO0).le⟩, smooth_before h.e2 r.a0 hT0, if_pos]
  refine lt_trans ?_ hO
  exact div_lt_div_of_pos_left r.a0 h.t h.T

theorem not_after (h : Regular p w) (r : Reach p w a) {O : ℝ} (hO : O ≤ a / p.timpact) :
    ¬(O ≠ 0 ∧ a / O < p.timpact ∧ 0 ≤ a / O) := by
  rintro ⟨h0, h1, h2⟩
  have hO0 : 0 < O := by
    rcases lt_or_gt_of_ne h0 with h0 | h0
    · exact absurd h2 (not_le.2 (div_neg_of_pos_of_neg r.a0 h0))
    · exact h0
  rw [div_lt_iff₀ hO0] at h1
  rw [le_div_iff₀ h.t] at hO
  linarith

theorem gap_at (h : Regular p w) (r : Reach p w a) : 0 < StreamGap.pOparapar p (a / p.timpact) a := by
  unfold StreamGap.pOparapar
  simp only
  rw [if_neg (not_after h r le_rfl)]
  have e : a - a / p.timpact * p.timpact = 0 := by rw [div_mul_cancel₀ _ h.t.ne', sub_self]
  have k0 : kick p 0 = 0 := by simp [kick]
  rw [e, k0, sub_zero]
  unfold Stream.pOparapar
  rw [if_pos ⟨(div_pos r.a0 h.t).ne', by simpa using h.T, by simp⟩]
  exact div_pos (exp_pos _) (sqrt_pos.2 h.e2)

theorem gap_before (h : Regular p w) (r : Reach p w a) {us : ℝ} (hz : H p a us = 0) (h0 : 0 < us) (h1 : us < p.n * w) {O : ℝ}
    (hO : O < a / p.timpact) :
    StreamGap.pOparapar p O a = if (a - us) / p.timpact < O then G p (O - p.raw (a - O * p.timpact)) else 0 := by
  have hu : 0 < a - O * p.timpact := by
    rw [lt_div_iff₀ h.t] at hO
    linarith
  have hT := sub_pos.2 h.T
  unfold StreamGap.pOparapar
  simp only
  rw [if_neg (not_after h r hO.le), smooth_before h.e2 hu hT]
  generalize hue : a - O * p.timpact = u at hu
  have hOe : O = (a - u) / p.timpact := by
    rw [eq_div_iff h.t.ne']
    linarith
  have hiff : (a - us) / p.timpact < O ↔ u < us := by
    rw [hOe, div_lt_div_iff_of_pos_right h.t]
    constructor <;> intro _ <;> linarith
  rw [if_congr hiff rfl rfl]
  by_cases hun : u < p.n * w
  · have hk : kick p u = p.raw u := by
      unfold kick
      rw [if_pos ⟨by rw [h.delta]; exact hun, hu⟩]
    rw [hk]
    have : u / (p.tdisrupt - p.timpact) < O - p.raw u ↔ u < us := by
      have e : O - p.raw u - u / (p.tdisrupt - p.timpact) = H p a u := by
        unfold H
        rw [hOe]
      rw [← sub_pos, e, ← hz, (H_anti (a := a) h).lt_iff_gt ⟨h0.le, h1.le⟩ ⟨hu.le, hun.le⟩]
    rw [if_congr this rfl rfl]
  · have hk : kick p u = 0 := by
      unfold kick
      rw [if_neg (fun hh => hun (by rw [← h.delta]; exact hh.1))]
    rw [hk, sub_zero, if_neg (not_lt.2 (h1.le.trans (not_lt.1 hun))), if_neg]
    rw [not_lt, hOe]
    have h2 := r.far0
    have h3 : (a - u) / p.timpact ≤ (a - p.n * w) / p.timpact :=
      div_le_div_of_nonneg_right (by linarith [not_lt.1 hun]) h.t.le
    have h4 : p.n * w / (p.tdisrupt - p.timpact) ≤ u / (p.tdisrupt - p.timpact) :=
      div_le_div_of_nonneg_right (not_lt.1 hun) hT.le
    linarith

end C87aux

/-- `minOpar` returns the smallest frequency at the angle offset: exactly the frequencies above it have a positive
`pOparapar`. -/
theorem C87_minOpar (p : Gap) {w a : ℝ} (h : Regular p w) (r : Reach p w a) :
    ∃ m, minOpar p a p.tdisrupt = some m ∧ ∀ O, 0 < StreamGap.pOparapar p O a ↔ m < O := by
  obtain ⟨b, low, hb, hm, l0, l1, hz, hpos⟩ := C87aux.root h r
  have hbn : (b : ℝ) + 1 ≤ p.n := by exact_mod_cast hb
  have hlt : b * w + p.timpact * low < p.n * w := by nlinarith [mul_le_mul_of_nonneg_right hbn h.w0.le]
  have hval : Ob p a b - low = (a - (b * w + p.timpact * low)) / p.timpact := by
    unfold Ob
    rw [h.x]
    have := h.t.ne'
    field_simp
    ring
  refine ⟨Ob p a b - low, by unfold minOpar; rw [hm]; rfl, fun O => ?_⟩
  rw [hval]
  have hle : (a - (b * w + p.timpact * low)) / p.timpact < a / p.timpact := div_lt_div_of_pos_right (by linarith) h.t
  rcases lt_trichotomy O (a / p.timpact) with h1 | h1 | h1
  · rw [C87aux.gap_before h r hz hpos hlt h1]
    split_ifs with h2
    · exact ⟨fun _ => h2, fun _ => C87aux.G_pos h.e2 _⟩
    · simp [h2]
  · rw [h1]
    exact ⟨fun _ => hle, fun _ => C87aux.gap_at h r⟩
  · rw [C87aux.gap_after h r h1]
    exact ⟨fun _ => hle.trans h1, fun _ => C87aux.G_pos h.e2 _⟩

example : ∃ m, minOpar tent 3 10 = some m ∧ ∀ O, 0 < StreamGap.pOparapar tent O 3 ↔ m < O :=
  C87_minOpar tent tent_regular tent_reach

namespace C87aux

variable {p : Gap} {w a : ℝ}

/-- The integral of `pOparapar` with any weight, interval by interval. -/
theorem integral_eq (h : Regular p w) (r : Reach p w a) {b : ℕ} {low : ℝ} (hb : b < p.n) (l0 : 0 ≤ low) (l1 : p.timpact * low < w)
    (hz : H p a (b * w + p.timpact * low) = 0) (hpos : 0 < b * w + p.timpact * low) {f : ℝ → ℝ} (hf : Continuous f)
    (hi : Integrable fun O => f O * G p O) :
    ∫ O, f O * StreamGap.pOparapar p O a
      = ∑ i ∈ Finset.range (b + 1), (∫ O in (ObCut p a b low (i + 1))..(ObCut p a b low i),
          f O * G p (O - (p.c 0 i + p.c 1 i * p.timpact * (ObCut p a b low i - O))))
        + ∫ O in Ioi (a / p.timpact), f O * G p O := by
  have ht := h.t
  have hbn : (b : ℝ) + 1 ≤ p.n := by exact_mod_cast hb
  have hlt : b * w + p.timpact * low < p.n * w := by nlinarith [mul_le_mul_of_nonneg_right hbn h.w0.le]
  set us := b * w + p.timpact * low with hus
  set F : ℝ → ℝ := fun O => f O * (if a / p.timpact < O then G p O else G p (O - p.raw (a - O * p.timpact))) with hF
  have hle : (a - us) / p.timpact < a / p.timpact := div_lt_div_of_pos_right (by linarith) h.t
  have O0 : ObCut p a b low 0 = a / p.timpact := by
    unfold ObCut Ob
    rw [if_neg (by omega), h.x]
    simp
  have Oe : ObCut p a b low (b + 1) = (a - us) / p.timpact := by
    unfold ObCut Ob
    rw [if_pos rfl, h.x, hus]
    field_simp
    ring
  have Oi : ∀ i ≤ b, ObCut p a b low i = (a - i * w) / p.timpact := fun i hi => by
    unfold ObCut Ob
    rw [if_neg (by omega), h.x]
  -- pieces
  have ord : ∀ i ≤ b, ObCut p a b low (i + 1) ≤ ObCut p a b low i := fun i hi => by
    rcases hi.eq_or_lt with h1 | h1
    · rw [Oi i hi, h1, Oe]
      exact div_le_div_of_nonneg_right (by rw [hus]; nlinarith [mul_nonneg ht.le l0]) ht.le
    · rw [Oi i hi, Oi (i + 1) h1]
      refine div_le_div_of_nonneg_right ?_ ht.le
      push_cast
      linarith [h.w0]
  have inside : ∀ i ≤ b, ∀ O ∈ Icc (ObCut p a b low (i + 1)) (ObCut p a b low i),
      a - O * p.timpact ∈ Icc (i * w) ((i + 1) * w) := fun i hi O hO => by
    obtain ⟨h1, h2⟩ := hO
    rw [Oi i hi, le_div_iff₀ ht] at h2
    refine ⟨by linarith, ?_⟩
    rcases hi.eq_or_lt with h3 | h3
    · rw [h3, Oe, div_le_iff₀ ht, hus] at h1
      rw [h3]
      linarith
    · rw [Oi (i + 1) h3, div_le_iff₀ ht] at h1
      push_cast at h1
      linarith
  have piece : ∀ i ≤ b, EqOn F (fun O => f O * G p (O - (p.c 0 i + p.c 1 i * p.timpact * (ObCut p a b low i - O))))
      (Icc (ObCut p a b low (i + 1)) (ObCut p a b low i)) := fun i hi O hO => by
    have hin := inside i hi O hO
    have h2 : ObCut p a b low i ≤ a / p.timpact := by
      rw [Oi i hi]
      exact div_le_div_of_nonneg_right (by linarith [mul_nonneg (Nat.cast_nonneg (α := ℝ) i) h.w0.le]) ht.le
    simp only [hF]
    rw [if_neg (not_lt.2 (hO.2.trans h2)), h.lin i (by omega) _ hin, Oi i hi]
    congr 3
    field_simp
    ring
  have contp : ∀ i, Continuous fun O => f O * G p (O - (p.c 0 i + p.c 1 i * p.timpact * (ObCut p a b low i - O))) := fun i =>
    hf.mul (G_cont.comp (by fun_prop))
  have ii : ∀ i < b + 1, IntervalIntegrable F volume (ObCut p a b low i) (ObCut p a b low (i + 1)) := fun i hi => by
    refine IntervalIntegrable.congr ?_ ((contp i).intervalIntegrable _ _)
    intro O hO
    have h1 := ord i (by omega)
    rw [uIoc_comm, uIoc_of_le h1] at hO
    exact (piece i (by omega) ⟨hO.1.le, hO.2⟩).symm
  have hsum : ∫ O in ((a - us) / p.timpact)..(a / p.timpact), F O
      = ∑ i ∈ Finset.range (b + 1), (∫ O in (ObCut p a b low (i + 1))..(ObCut p a b low i),
          f O * G p (O - (p.c 0 i + p.c 1 i * p.timpact * (ObCut p a b low i - O)))) := by
    have := intervalIntegral.sum_integral_adjacent_intervals ii
    rw [O0, Oe] at this
    rw [intervalIntegral.integral_symm, ← this, ← Finset.sum_neg_distrib]
    refine Finset.sum_congr rfl fun i hi => ?_
    have hi' : i ≤ b := by
      have := Finset.mem_range.1 hi
      omega
    rw [← intervalIntegral.integral_symm]
    refine intervalIntegral.integral_congr fun O hO => ?_
    rw [uIcc_of_le (ord i hi')] at hO
    exact piece i hi' hO
  have iw : IntervalIntegrable F volume ((a - us) / p.timpact) (a / p.timpact) := by
    have := IntervalIntegrable.trans_iterate ii
    rw [O0, Oe] at this
    exact this.symm
  have hrest : ∫ O in Ioi (a / p.timpact), F O = ∫ O in Ioi (a / p.timpact), f O * G p O := by
    refine setIntegral_congr_fun measurableSet_Ioi fun O hO => ?_
    simp only [hF]
    rw [if_pos (mem_Ioi.1 hO)]
  have irest : IntegrableOn F (Ioi (a / p.timpact)) := by
    refine IntegrableOn.congr_fun hi.integrableOn (fun O hO => ?_) measurableSet_Ioi
    simp only [hF]
    rw [if_pos (mem_Ioi.1 hO)]
  have hall : ∫ O, f O * StreamGap.pOparapar p O a = ∫ O in Ioi ((a - us) / p.timpact), F O := by
    rw [← integral_indicator measurableSet_Ioi]
    refine integral_congr_ae ?_
    have : ∀ᵐ O : ℝ, O ≠ a / p.timpact := by
      rw [ae_iff]
      simp
    filter_upwards [this] with O hO
    simp only [indicator, mem_Ioi, hF]
    rcases lt_or_gt_of_ne hO with h1 | h1
    · rw [gap_before h r hz hpos hlt h1, if_neg (not_lt.2 h1.le)]
      split_ifs
      · rfl
      · rw [mul_zero]
    · rw [gap_after h r h1, if_pos (hle.trans h1), if_pos h1]
  rw [hall, ← hrest, ← hsum]
  have i0 : IntegrableOn F (Ioi ((a - us) / p.timpact)) := by
    rw [← Ioc_union_Ioi_eq_Ioi hle.le]
    refine IntegrableOn.union ?_ irest
    rwa [intervalIntegrable_iff_integrableOn_Ioc_of_le hle.le] at iw
  exact (intervalIntegral.integral_interval_add_Ioi i0 irest).symm

theorem iG0 (he : 0 < p.e2) : Integrable fun O => (1 : ℝ) * G p O := by
  simp only [one_mul]
  exact (int0 he).div_const _

theorem iG1 (he : 0 < p.e2) : Integrable fun O => O * G p O := by
  have := (int1 (μ := p.meandO) he).div_const (√p.e2)
  refine this.congr (Filter.Eventually.of_forall fun O => ?_)
  simp only [G_eq]
  ring

theorem arr0 (he : 0 < p.e2) (O : ℕ → ℝ) (i : ℕ) (hq : 1 + p.c 1 i * p.timpact ≠ 0) :
    ∫ x in (O (i + 1))..(O i), 1 * G p (x - (p.c 0 i + p.c 1 i * p.timpact * (O i - x))) = √(2 * π) * densArr p O i := by
  have h1 := seg0 (μ := p.meandO) (c0 := p.c 0 i) (c1 := p.c 1 i * p.timpact) (B := O i) (L := O (i + 1)) he hq
  simp only [one_mul, G_eq]
  rw [intervalIntegral.integral_div, h1, sqrt_mul (by positivity)]
  have := (sqrt_pos.2 he).ne'
  unfold densArr
  field_simp

theorem arr1 (he : 0 < p.e2) (O : ℕ → ℝ) (i : ℕ) (hq : 1 + p.c 1 i * p.timpact ≠ 0) :
    ∫ x in (O (i + 1))..(O i), x * G p (x - (p.c 0 i + p.c 1 i * p.timpact * (O i - x))) = √(2 * π) * meanArr p O i := by
  have h0 := arr0 he O i hq
  have h1 := seg1 (μ := p.meandO) (c0 := p.c 0 i) (c1 := p.c 1 i * p.timpact) (B := O i) (L := O (i + 1)) he hq
  have e0 : ∫ x in (O (i + 1))..(O i), g p.meandO p.e2 (x - (p.c 0 i + p.c 1 i * p.timpact * (O i - x)))
      = √p.e2 * (√(2 * π) * densArr p O i) := by
    rw [← h0]
    simp only [one_mul, G_eq]
    rw [intervalIntegral.integral_div, mul_div_cancel₀ _ (sqrt_pos.2 he).ne']
  have e1 : ∫ x in (O (i + 1))..(O i), x * G p (x - (p.c 0 i + p.c 1 i * p.timpact * (O i - x)))
      = (∫ x in (O (i + 1))..(O i), x * g p.meandO p.e2 (x - (p.c 0 i + p.c 1 i * p.timpact * (O i - x)))) / √p.e2 := by
    rw [← intervalIntegral.integral_div]
    congr 1
    funext x
    simp only [G_eq]
    ring
  rw [e1, h1, e0]
  unfold meanArr
  have x1 := Stream.exp_eq (p := p.toPar) he (O i - p.c 0 i - (1 + p.c 1 i * p.timpact) * (O i - O (i + 1)))
  have x2 := Stream.exp_eq (p := p.toPar) he (O i - p.c 0 i)
  rw [x1, x2]
  generalize g p.meandO p.e2 _ = g1
  generalize g p.meandO p.e2 _ = g2
  generalize densArr p O i = d
  generalize 1 + p.c 1 i * p.timpact = q at *
  have hv := sqrt_pos.2 he
  have s1 : √(2 * π) * √(p.e2 / 2 / π) = √p.e2 := by
    rw [← sqrt_mul (by positivity)]
    congr 1
    field_simp
  have s2 : √p.e2 * √p.e2 = p.e2 := mul_self_sqrt he.le
  have s3 : p.e2 / √p.e2 = √p.e2 := by rw [div_eq_iff hv.ne', s2]
  calc _ = (O i + (p.meandO + p.c 0 i - O i) / q) * (√(2 * π) * d) * (√p.e2 / √p.e2)
        + (p.e2 / √p.e2) / q ^ 2 * (g1 - g2) := by ring
    _ = (O i + (p.meandO + p.c 0 i - O i) / q) * (√(2 * π) * d)
        + (√(2 * π) * √(p.e2 / 2 / π)) / q ^ 2 * (g1 - g2) := by rw [div_self hv.ne', s3, s1, mul_one]
    _ = _ := by ring

theorem tailG0 (he : 0 < p.e2) (l : ℝ) :
    ∫ O in Ioi l, 1 * G p O = √(2 * π) * (0.5 * (1 + erf ((p.meandO - l) / √(2 * p.e2)))) := by
  simp only [one_mul, G_eq]
  rw [integral_div, tail0 he, sqrt_mul (by positivity)]
  have := (sqrt_pos.2 he).ne'
  field_simp

theorem tailG1 (he : 0 < p.e2) (l : ℝ) :
    ∫ O in Ioi l, O * G p O = √(2 * π) * (0.5 * (√(2 / π) * √p.e2 * exp (-0.5 * (p.meandO - l) ^ 2 / p.e2)
        + p.meandO * (1 + erf ((p.meandO - l) / √(2 * p.e2))))) := by
  have hv := sqrt_pos.2 he
  have e : ∫ O in Ioi l, O * G p O = (∫ O in Ioi l, O * g p.meandO p.e2 O) / √p.e2 := by
    rw [← integral_div]
    congr 1
    funext x
    simp only [G_eq]
    ring
  have e2 : exp (-0.5 * (p.meandO - l) ^ 2 / p.e2) = g p.meandO p.e2 l := by
    have := Stream.exp_eq (p := p.toPar) he l
    rw [← this, ← neg_sub l, neg_sq]
  rw [e, tail1 he, tail0 he, e2, sqrt_mul (by positivity)]
  have s1 : √(2 * π) * √(2 / π) = 2 := by
    rw [← sqrt_mul (by positivity)]
    have : 2 * π * (2 / π) = 2 ^ 2 := by field_simp
    rw [this, sqrt_sq (by norm_num)]
  have s2 : √p.e2 * √p.e2 = p.e2 := mul_self_sqrt he.le
  have s3 : p.e2 / √p.e2 = √p.e2 := by rw [div_eq_iff hv.ne', s2]
  generalize g p.meandO p.e2 l = gl
  generalize erf ((p.meandO - l) / √(2 * p.e2)) = E
  calc _ = p.meandO * (√(2 * π) * (0.5 * (1 + E))) * (√p.e2 / √p.e2) + p.e2 / √p.e2 * gl := by ring
    _ = p.meandO * (√(2 * π) * (0.5 * (1 + E))) + 2 * (0.5 * (√p.e2 * gl)) := by rw [div_self hv.ne', s3]; ring
    _ = p.meandO * (√(2 * π) * (0.5 * (1 + E))) + √(2 * π) * √(2 / π) * (0.5 * (√p.e2 * gl)) := by rw [s1]
    _ = _ := by ring

theorem higher_zero (hK : p.splineOrder = 1) (O : ℕ → ℝ) (i : ℕ) : densHigherArr p O i = 0 ∧ meanHigherArr p O i = 0 := by
  have h1 : densHigherArr p O i = 0 := by
    unfold densHigherArr
    rw [hK]
    simp
  refine ⟨h1, ?_⟩
  unfold meanHigherArr
  rw [h1, hK]
  simp

end C87aux

/-- `density_par` (with the approximation, which is exact for a piecewise-linear kick): the integral of `pOparapar` over all
frequencies, in the normalisation of the smooth stream. -/
theorem C87_density (p : Gap) {w a : ℝ} (h : Regular p w) (r : Reach p w a) (higherorder : Bool)
    (hK : higherorder = true → p.splineOrder = 1) :
    densApprox p a p.tdisrupt higherorder = some ((∫ O, StreamGap.pOparapar p O a) / √(2 * π)) := by
  obtain ⟨b, low, hb, hm, l0, l1, hz, hpos⟩ := C87aux.root h r
  have hint := C87aux.integral_eq h r hb l0 l1 hz hpos (f := fun _ => 1) continuous_const (C87aux.iG0 h.e2)
  have hs : √(2 * π) ≠ 0 := (sqrt_pos.2 (by positivity)).ne'
  have O0 : ObCut p a b low 0 = a / p.timpact := by
    unfold ObCut Ob
    rw [if_neg (by omega), h.x]
    simp
  have hh : (if higherorder then ∑ i ∈ Finset.range (b + 1), densHigherArr p (ObCut p a b low) i else 0) = 0 := by
    split_ifs with h1
    · exact Finset.sum_eq_zero fun i _ => (C87aux.higher_zero (hK h1) _ i).1
    · rfl
  unfold densApprox
  rw [hm]
  simp only [Option.map_some, Option.some.injEq]
  rw [hh, add_zero, O0, eq_div_iff hs]
  simp only [one_mul] at hint
  rw [hint]
  have e1 := C87aux.tailG0 (p := p) h.e2 (a / p.timpact)
  simp only [one_mul] at e1
  rw [e1, add_mul, Finset.sum_mul, mul_comm (0.5 * _)]
  congr 1
  refine Finset.sum_congr rfl fun i hi => ?_
  have hi' := Finset.mem_range.1 hi
  have := C87aux.arr0 (p := p) h.e2 (ObCut p a b low) i (h.q i (by omega))
  simp only [one_mul] at this
  rw [this, mul_comm]

example : densApprox tent 3 10 true = some ((∫ O, StreamGap.pOparapar tent O 3) / √(2 * π)) :=
  C87_density tent tent_regular tent_reach true fun _ => rfl

namespace C87aux

variable {p : Gap} {w a : ℝ}

theorem OT_deriv {T : ℝ} (hT : T ∈ Ioo (-1 : ℝ) 1) :
    HasDerivAt (OT p) (√p.e2 * (1 + T * T) / (1 - T * T) ^ 2) T := by
  have hne : 1 - T * T ≠ 0 := by
    have h1 := hT.1
    have h2 := hT.2
    nlinarith [mul_pos (sub_pos.2 h2) (show 0 < 1 + T by linarith)]
  have h1 : HasDerivAt (fun T : ℝ => 1 - T * T) (-(T + T)) T := by
    refine (((hasDerivAt_id T).mul (hasDerivAt_id T)).const_sub 1).congr_deriv ?_
    simp
  unfold OT
  refine ((((hasDerivAt_id T).div h1 hne).mul_const (√p.e2)).add_const p.meandO).congr_deriv ?_
  simp only [id]
  field_simp
  ring

theorem OT_image (he : 0 < p.e2) : OT p '' Ioo (-1 : ℝ) 1 = univ := by
  refine eq_univ_of_forall fun O => ?_
  have hv := sqrt_pos.2 he
  set s := (O - p.meandO) / √p.e2 with hs
  have hr0 : 0 < 1 + 4 * s ^ 2 := by positivity
  have hr := sq_sqrt hr0.le
  have hr1 := sqrt_pos.2 hr0
  set r := √(1 + 4 * s ^ 2) with hrd
  have h1r : 0 < 1 + r := by linarith
  refine ⟨2 * s / (1 + r), ⟨?_, ?_⟩, ?_⟩
  · rw [lt_div_iff₀ h1r]
    nlinarith
  · rw [div_lt_iff₀ h1r]
    nlinarith
  · have e : 1 - 2 * s / (1 + r) * (2 * s / (1 + r)) = 2 / (1 + r) := by
      field_simp
      nlinarith
    unfold OT
    rw [e]
    have : 2 * s / (1 + r) / (2 / (1 + r)) = s := by field_simp
    rw [this, hs, div_mul_cancel₀ _ hv.ne', sub_add_cancel]

theorem OT_inj (he : 0 < p.e2) : InjOn (OT p) (Ioo (-1 : ℝ) 1) := by
  have hv := sqrt_pos.2 he
  have : StrictMonoOn (OT p) (Ioo (-1 : ℝ) 1) := by
    refine strictMonoOn_of_deriv_pos (convex_Ioo _ _) (fun T hT => (OT_deriv hT).continuousAt.continuousWithinAt) fun T hT => ?_
    rw [interior_Ioo] at hT
    rw [(OT_deriv hT).deriv]
    have h1 := hT.1
    have h2 := hT.2
    have : 0 < 1 - T * T := by nlinarith [mul_pos (sub_pos.2 h2) (show 0 < 1 + T by linarith)]
    have h3 : 0 < 1 + T * T := by nlinarith [mul_self_nonneg T]
    positivity
  exact this.injOn

theorem exact_eq (he : 0 < p.e2) (F : ℝ → ℝ) :
    ∫ T in (-1 : ℝ)..1, √p.e2 * (1 + T * T) / (1 - T * T) ^ 2 * F (OT p T) = ∫ O, F O := by
  have hv := sqrt_pos.2 he
  rw [intervalIntegral.integral_of_le (by norm_num), integral_Ioc_eq_integral_Ioo, ← setIntegral_univ (f := F), ← OT_image he,
    integral_image_eq_integral_abs_deriv_smul measurableSet_Ioo (fun T hT => (OT_deriv hT).hasDerivWithinAt) (OT_inj he)]
  refine setIntegral_congr_fun measurableSet_Ioo fun T hT => ?_
  simp only [smul_eq_mul]
  have h3 : 0 < 1 + T * T := by nlinarith [mul_self_nonneg T]
  rw [abs_of_nonneg (by positivity)]

theorem int_pos (h : Regular p w) (r : Reach p w a) : 0 < ∫ O, StreamGap.pOparapar p O a := by
  obtain ⟨b, low, hb, hm, l0, l1, hz, hpos⟩ := root h r
  have hint := integral_eq h r hb l0 l1 hz hpos (f := fun _ => 1) continuous_const (iG0 h.e2)
  simp only [one_mul] at hint
  rw [hint]
  have e1 := tailG0 (p := p) h.e2 (a / p.timpact)
  simp only [one_mul] at e1
  have ht : 0 < ∫ O in Ioi (a / p.timpact), G p O := by
    rw [e1]
    have := erf_gt ((p.meandO - a / p.timpact) / √(2 * p.e2))
    have h2 : 0 < √(2 * π) := sqrt_pos.2 (by positivity)
    have : 0 < 1 + erf ((p.meandO - a / p.timpact) / √(2 * p.e2)) := by linarith
    positivity
  have hs : 0 ≤ ∑ i ∈ Finset.range (b + 1), (∫ O in (ObCut p a b low (i + 1))..(ObCut p a b low i),
          G p (O - (p.c 0 i + p.c 1 i * p.timpact * (ObCut p a b low i - O)))) := by
    refine Finset.sum_nonneg fun i hi => intervalIntegral.integral_nonneg ?_ fun O _ => (G_pos h.e2 _).le
    have hi' := Finset.mem_range.1 hi
    unfold ObCut
    rw [if_neg (show i ≠ b + 1 by omega)]
    split_ifs with h1
    · rw [show i = b by omega]
      linarith
    · unfold Ob
      rw [h.x, h.x]
      refine div_le_div_of_nonneg_right ?_ h.t.le
      push_cast
      linarith [h.w0]
  linarith

end C87aux

/-- `meanOmega` is the mean of the frequency under `pOparapar`, computed either way. -/
theorem C87_mean (p : Gap) {w a : ℝ} (h : Regular p w) (r : Reach p w a) (higherorder : Bool)
    (hK : higherorder = true → p.splineOrder = 1) (approx : Bool) :
    meanOmega1 p a p.tdisrupt approx higherorder
      = some ((∫ O, O * StreamGap.pOparapar p O a) / ∫ O, StreamGap.pOparapar p O a) := by
  have hs : √(2 * π) ≠ 0 := (sqrt_pos.2 (by positivity)).ne'
  cases approx with
  | false =>
    unfold meanOmega1 meanNumExact densExact
    simp only [Bool.false_eq_true, if_false, Option.some.injEq]
    congr 1
    · rw [← C87aux.exact_eq h.e2 fun O => O * StreamGap.pOparapar p O a]
      congr 1
      funext T
      ring
    · exact C87aux.exact_eq h.e2 fun O => StreamGap.pOparapar p O a
  | true =>
    obtain ⟨b, low, hb, hm, l0, l1, hz, hpos⟩ := C87aux.root h r
    have hint := C87aux.integral_eq h r hb l0 l1 hz hpos (f := fun O => O) continuous_id (C87aux.iG1 h.e2)
    have O0 : ObCut p a b low 0 = a / p.timpact := by
      unfold ObCut Ob
      rw [if_neg (by omega), h.x]
      simp
    have hh : (if higherorder then ∑ i ∈ Finset.range (b + 1), meanHigherArr p (ObCut p a b low) i else 0) = 0 := by
      split_ifs with h1
      · exact Finset.sum_eq_zero fun i _ => (C87aux.higher_zero (hK h1) _ i).2
      · rfl
    have hnum : meanNumApprox p a p.tdisrupt higherorder = some ((∫ O, O * StreamGap.pOparapar p O a) / √(2 * π)) := by
      unfold meanNumApprox
      rw [hm]
      simp only [Option.map_some, Option.some.injEq]
      rw [hh, add_zero, O0, eq_div_iff hs, hint, C87aux.tailG1 (p := p) h.e2 (a / p.timpact), add_mul, Finset.sum_mul,
        mul_comm (0.5 * _)]
      congr 1
      refine Finset.sum_congr rfl fun i hi => ?_
      have hi' := Finset.mem_range.1 hi
      rw [C87aux.arr1 (p := p) h.e2 (ObCut p a b low) i (h.q i (by omega)), mul_comm]
    unfold meanOmega1
    rw [if_pos rfl, hnum, C87_density p h r higherorder hK]
    change some _ = _
    rw [div_div_div_cancel_right₀ hs]

example : meanOmega1 tent 3 10 true false = meanOmega1 tent 3 10 false false := by
  have h1 := C87_mean tent tent_regular tent_reach false (fun h => by simp at h) true
  have h2 := C87_mean tent tent_regular tent_reach false (fun h => by simp at h) false
  exact h1.trans h2.symm

/-- `density_par(approx=False)` is not the number that `density_par` returns with the approximation, also where the latter is exact:
it is larger by `√(2π)` everywhere. -/
theorem C87_exact_fails (p : Gap) {w a : ℝ} (h : Regular p w) (r : Reach p w a) {d : ℝ}
    (hd : densApprox p a p.tdisrupt false = some d) : densExact p a p.tdisrupt = √(2 * π) * d ∧ d < densExact p a p.tdisrupt := by
  rw [C87_density p h r false (fun h => by simp at h), Option.some.injEq] at hd
  have hs : 0 < √(2 * π) := sqrt_pos.2 (by positivity)
  have h1 : 1 < √(2 * π) := by
    rw [lt_sqrt (by norm_num)]
    nlinarith [Real.pi_gt_three]
  have hp := C87aux.int_pos h r
  have e : densExact p a p.tdisrupt = √(2 * π) * d := by
    unfold densExact
    rw [C87aux.exact_eq h.e2 fun O => StreamGap.pOparapar p O a, ← hd, mul_div_cancel₀ _ hs.ne']
  refine ⟨e, ?_⟩
  rw [e]
  have : 0 < d := by rw [← hd]; exact div_pos hp hs
  nlinarith

example : ∃ d, densApprox tent 3 10 false = some d ∧ d < densExact tent 3 10 :=
  ⟨_, C87_density tent tent_regular tent_reach false (fun h => by simp at h),
    (C87_exact_fails tent tent_regular tent_reach (C87_density tent tent_regular tent_reach false (fun h => by simp at h))).2⟩

/-- Without a kick the gap model is the smooth model, at every frequency and angle. -/
theorem C87_nokick (p : Gap) (h : ∀ u, p.raw u = 0) (ht : 0 ≤ p.timpact) (hT : p.timpact ≤ p.tdisrupt) (O a : ℝ) :
    StreamGap.pOparapar p O a = Stream.pOparapar p.toPar O a p.tdisrupt := by
  have hk : ∀ u, kick p u = 0 := fun u => by
    unfold kick
    rw [h, ite_self]
  unfold StreamGap.pOparapar
  simp only [hk, sub_zero]
  split_ifs with h1
  · rfl
  · unfold Stream.pOparapar
    by_cases hO : O = 0
    · simp [hO]
    · have e : (a - O * p.timpact) / O = a / O - p.timpact := by
        rw [sub_div, mul_div_cancel_left₀ _ hO]
      rw [e]
      refine if_congr ⟨?_, ?_⟩ rfl rfl
      · rintro ⟨_, h2, h3⟩
        exact ⟨hO, by linarith, by linarith⟩
      · rintro ⟨_, h2, h3⟩
        have : p.timpact ≤ a / O := by
          by_contra h4
          exact h1 ⟨hO, not_le.1 h4, h3⟩
        exact ⟨hO, by linarith, by linarith⟩

example : StreamGap.pOparapar { tent with raw := fun _ => 0 } 5 3 = Stream.pOparapar tent.toPar 5 3 10 :=
  C87_nokick { tent with raw := fun _ => 0 } (fun _ => rfl) (by norm_num [tent]) (by norm_num [tent]) 5 3

namespace C87aux

variable {p : Gap}

theorem change_eq (he : 0 < p.e2) (i : ℕ) (B O : ℝ) :
    change p i B O = (∑ m ∈ Finset.Ico 2 (p.splineOrder + 1), p.c m i * (p.timpact * (B - O)) ^ m)
      * ((O - (p.c 0 i + p.c 1 i * p.timpact * (B - O)) - p.meandO) / p.e2)
      * (g p.meandO p.e2 (O - (p.c 0 i + p.c 1 i * p.timpact * (B - O))) / √p.e2) := by
  unfold change
  simp only
  generalize (∑ m ∈ Finset.Ico 2 (p.splineOrder + 1), p.c m i * (p.timpact * (B - O)) ^ m) = E
  have hd : HasDerivAt (fun ε : ℝ => O - (p.c 0 i + p.c 1 i * (p.timpact * (B - O)) + ε * E)) (-E) 0 := by
    have := (((hasDerivAt_id (0 : ℝ)).mul_const E).const_add (p.c 0 i + p.c 1 i * (p.timpact * (B - O)))).const_sub O
    simpa using this
  have h2 := (g_deriv (μ := p.meandO) he (O - (p.c 0 i + p.c 1 i * (p.timpact * (B - O)) + 0 * E))).comp (0 : ℝ) hd
  have h3 : HasDerivAt (fun ε => G p (O - (p.c 0 i + p.c 1 i * (p.timpact * (B - O)) + ε * E))) _ 0 := h2.div_const (√p.e2)
  rw [h3.deriv]
  have e : O - (p.c 0 i + p.c 1 i * (p.timpact * (B - O)) + 0 * E) = O - (p.c 0 i + p.c 1 i * p.timpact * (B - O)) := by ring
  rw [e]
  ring

theorem higher_dens (he : 0 < p.e2) (O : ℕ → ℝ) (i : ℕ) (hq : 1 + p.c 1 i * p.timpact ≠ 0) :
    densHigherArr p O i = (∫ x in (O (i + 1))..(O i), change p i (O i) x) / √(2 * π) := by
  have hc : ∀ m : ℕ, Continuous fun x : ℝ => p.c m i * p.timpact ^ m * ((O i - x) ^ m
      * ((x - (p.c 0 i + p.c 1 i * p.timpact * (O i - x)) - p.meandO) / p.e2)
      * (g p.meandO p.e2 (x - (p.c 0 i + p.c 1 i * p.timpact * (O i - x))) / √p.e2)) := fun m => by
    unfold g
    fun_prop
  have e : ∀ x, change p i (O i) x = ∑ m ∈ Finset.Ico 2 (p.splineOrder + 1), p.c m i * p.timpact ^ m * ((O i - x) ^ m
      * ((x - (p.c 0 i + p.c 1 i * p.timpact * (O i - x)) - p.meandO) / p.e2)
      * (g p.meandO p.e2 (x - (p.c 0 i + p.c 1 i * p.timpact * (O i - x))) / √p.e2)) := fun x => by
    rw [change_eq he, Finset.sum_mul, Finset.sum_mul]
    refine Finset.sum_congr rfl fun m _ => ?_
    rw [mul_pow]
    ring
  simp_rw [e]
  rw [intervalIntegral.integral_finset_sum fun m _ => (hc m).intervalIntegrable _ _, Finset.sum_div]
  unfold densHigherArr
  simp_rw [Finset.mul_sum]
  rw [Finset.sum_comm]
  refine Finset.sum_congr rfl fun m hm => ?_
  have hm' := (Finset.mem_Ico.1 hm).2
  rw [intervalIntegral.integral_const_mul]
  have := power_eq (μ := p.meandO) (v := p.e2) (c0 := p.c 0 i) (c1 := p.c 1 i * p.timpact) (B := O i) (L := O (i + 1)) he hq m
    p.splineOrder (by omega) (p.c m i * p.timpact ^ m)
  exact this.trans (by ring)

theorem higher_mean (he : 0 < p.e2) (O : ℕ → ℝ) (i : ℕ) (hq : 1 + p.c 1 i * p.timpact ≠ 0) :
    meanHigherArr p O i = (∫ x in (O (i + 1))..(O i), (2 * O i - x) * change p i (O i) x) / √(2 * π) := by
  have hch : Continuous fun x => change p i (O i) x := by
    simp_rw [change_eq he]
    unfold g
    fun_prop
  have hc : ∀ m : ℕ, Continuous fun x : ℝ => p.c m i * p.timpact ^ m * ((O i - x) ^ (m + 1)
      * ((x - (p.c 0 i + p.c 1 i * p.timpact * (O i - x)) - p.meandO) / p.e2)
      * (g p.meandO p.e2 (x - (p.c 0 i + p.c 1 i * p.timpact * (O i - x))) / √p.e2)) := fun m => by
    unfold g
    fun_prop
  have e : ∀ x, (O i - x) * change p i (O i) x = ∑ m ∈ Finset.Ico 2 (p.splineOrder + 1), p.c m i * p.timpact ^ m * ((O i - x) ^ (m + 1)
      * ((x - (p.c 0 i + p.c 1 i * p.timpact * (O i - x)) - p.meandO) / p.e2)
      * (g p.meandO p.e2 (x - (p.c 0 i + p.c 1 i * p.timpact * (O i - x))) / √p.e2)) := fun x => by
    rw [change_eq he, Finset.sum_mul, Finset.sum_mul, Finset.mul_sum]
    refine Finset.sum_congr rfl fun m _ => ?_
    rw [mul_pow]
    ring
  have split : ∫ x in (O (i + 1))..(O i), (2 * O i - x) * change p i (O i) x
      = (∫ x in (O (i + 1))..(O i), (O i - x) * change p i (O i) x) + O i * ∫ x in (O (i + 1))..(O i), change p i (O i) x := by
    rw [← intervalIntegral.integral_const_mul, ← intervalIntegral.integral_add]
    · congr 1
      funext x
      ring
    · exact (by fun_prop : Continuous fun x => (O i - x) * change p i (O i) x).intervalIntegrable _ _
    · exact (hch.const_mul _).intervalIntegrable _ _
  rw [split, add_div, mul_div_assoc (O i), ← higher_dens he O i hq]
  unfold meanHigherArr
  congr 1
  simp_rw [e]
  rw [intervalIntegral.integral_finset_sum fun m _ => (hc m).intervalIntegrable _ _, Finset.sum_div]
  simp_rw [Finset.mul_sum]
  rw [Finset.sum_comm]
  refine Finset.sum_congr rfl fun m hm => ?_
  have hm' := (Finset.mem_Ico.1 hm).2
  rw [intervalIntegral.integral_const_mul]
  have := power_eq (μ := p.meandO) (v := p.e2) (c0 := p.c 0 i) (c1 := p.c 1 i * p.timpact) (B := O i) (L := O (i + 1)) he hq (m + 1)
    (p.splineOrder + 1) (by omega) (p.c m i * p.timpact ^ m)
  exact this.trans (by ring)

/-- One interval with a quadratic kick. -/
def quad : Gap where
  meandO := 0
  e2 := 1
  e1 := 1 / 100
  e0 := 1 / 400
  tdisrupt := 2
  sigangle := 1 / 10
  timpact := 1
  delta := 10
  raw := fun u => u ^ 2
  n := 1
  x := fun i => 10 * i
  c := fun m _ => if m = 2 then 1 else 0
  splineOrder := 2

theorem quad_raw : minRaw quad 2 2 1 = some (0, 1) := by
  have e : lowx quad 2 2 0 = 1 := by norm_num [lowx, Ob, quad]
  rw [minRaw, e, if_neg (by norm_num)]
  rfl

end C87aux

/-- `density_par(higherorder=True)` for a kick interpolated by splines of any order: it adds, on every interval the integral runs
over, the first-order change due to the powers of the angle beyond the first. -/
theorem C87_higher (p : Gap) {a T low : ℝ} {b : ℕ} (he : 0 < p.e2) (hq : ∀ i ≤ b, 1 + p.c 1 i * p.timpact ≠ 0)
    (hm : minRaw p a T p.n = some (b, low)) :
    ∃ d, densApprox p a T false = some d ∧
      densApprox p a T true = some (d + (∑ i ∈ Finset.range (b + 1), ∫ x in (ObCut p a b low (i + 1))..(ObCut p a b low i),
        change p i (ObCut p a b low i) x) / √(2 * π)) := by
  unfold densApprox
  rw [hm]
  simp only [Option.map_some, if_true, Bool.false_eq_true, if_false, add_zero]
  refine ⟨_, rfl, ?_⟩
  rw [Finset.sum_div]
  have : ∑ i ∈ Finset.range (b + 1), densHigherArr p (ObCut p a b low) i = ∑ i ∈ Finset.range (b + 1),
      (∫ x in (ObCut p a b low (i + 1))..(ObCut p a b low i), change p i (ObCut p a b low i) x) / √(2 * π) :=
    Finset.sum_congr rfl fun i hi => C87aux.higher_dens he _ i (hq i (by have := Finset.mem_range.1 hi; omega))
  rw [this, Option.some.injEq]
  ring

example : ∃ d, densApprox C87aux.quad 2 2 false = some d ∧ densApprox C87aux.quad 2 2 true
    = some (d + (∑ i ∈ Finset.range (0 + 1), ∫ x in (ObCut C87aux.quad 2 0 1 (i + 1))..(ObCut C87aux.quad 2 0 1 i),
        change C87aux.quad i (ObCut C87aux.quad 2 0 1 i) x) / √(2 * π)) :=
  C87_higher C87aux.quad (by norm_num [C87aux.quad]) (fun i _ => by norm_num [C87aux.quad]) C87aux.quad_raw

/-- `meanOmega(higherorder=True)`: the numerator should change by the integral of the frequency `x` times the first-order change; the
code adds that of `2 O_i - x`, where `O_i` is the frequency at the near end of the interval (the sign of one term is wrong), and for
a quadratic kick the two differ. -/
theorem C87_higher_mean_fails :
    (∀ (p : Gap) (a T low : ℝ) (b : ℕ), 0 < p.e2 → (∀ i ≤ b, 1 + p.c 1 i * p.timpact ≠ 0) → minRaw p a T p.n = some (b, low) →
      ∃ d, meanNumApprox p a T false = some d ∧
        meanNumApprox p a T true = some (d + (∑ i ∈ Finset.range (b + 1), ∫ x in (ObCut p a b low (i + 1))..(ObCut p a b low i),
          (2 * ObCut p a b low i - x) * change p i (ObCut p a b low i) x) / √(2 * π))) ∧
    ∃ (p : Gap) (a T low : ℝ) (b : ℕ), 0 < p.e2 ∧ (∀ i ≤ b, 1 + p.c 1 i * p.timpact ≠ 0) ∧ minRaw p a T p.n = some (b, low) ∧
      ∀ d, meanNumApprox p a T false = some d →
        meanNumApprox p a T true ≠ some (d + (∑ i ∈ Finset.range (b + 1), ∫ x in (ObCut p a b low (i + 1))..(ObCut p a b low i),
          x * change p i (ObCut p a b low i) x) / √(2 * π)) := by
  have main : ∀ (p : Gap) (a T low : ℝ) (b : ℕ), 0 < p.e2 → (∀ i ≤ b, 1 + p.c 1 i * p.timpact ≠ 0) →
      minRaw p a T p.n = some (b, low) →
      ∃ d, meanNumApprox p a T false = some d ∧
        meanNumApprox p a T true = some (d + (∑ i ∈ Finset.range (b + 1), ∫ x in (ObCut p a b low (i + 1))..(ObCut p a b low i),
          (2 * ObCut p a b low i - x) * change p i (ObCut p a b low i) x) / √(2 * π)) := by
    intro p a T low b he hq hm
    unfold meanNumApprox
    rw [hm]
    simp only [Option.map_some, if_true, Bool.false_eq_true, if_false, add_zero]
    refine ⟨_, rfl, ?_⟩
    rw [Finset.sum_div]
    have : ∑ i ∈ Finset.range (b + 1), meanHigherArr p (ObCut p a b low) i = ∑ i ∈ Finset.range (b + 1),
        (∫ x in (ObCut p a b low (i + 1))..(ObCut p a b low i), (2 * ObCut p a b low i - x) * change p i (ObCut p a b low i) x)
          / √(2 * π) :=
      Finset.sum_congr rfl fun i hi => C87aux.higher_mean he _ i (hq i (by have := Finset.mem_range.1 hi; omega))
    rw [this, Option.some.injEq]
    ring
  refine ⟨main, C87aux.quad, 2, 2, 1, 0, by norm_num [C87aux.quad], fun i _ => by norm_num [C87aux.quad], C87aux.quad_raw, ?_⟩
  intro d hd
  have he : 0 < C87aux.quad.e2 := by norm_num [C87aux.quad]
  obtain ⟨d', h1, h2⟩ := main C87aux.quad 2 2 1 0 he (fun i _ => by norm_num [C87aux.quad]) C87aux.quad_raw
  rw [h1, Option.some.injEq] at hd
  rw [h2, hd]
  simp only [zero_add, Finset.range_one, Finset.sum_singleton, ne_eq, Option.some.injEq, add_right_inj]
  have o0 : ObCut C87aux.quad 2 0 1 0 = 2 := by norm_num [ObCut, Ob, C87aux.quad]
  have o1 : ObCut C87aux.quad 2 0 1 1 = 1 := by norm_num [ObCut, Ob, C87aux.quad]
  rw [o0, o1]
  have hs : √(2 * π) ≠ 0 := (sqrt_pos.2 (by positivity)).ne'
  intro h
  rw [div_left_inj' hs] at h
  have hch : Continuous fun x => change C87aux.quad 0 2 x := by
    simp_rw [C87aux.change_eq he]
    unfold g
    fun_prop
  have hpos : 0 < ∫ x in (1 : ℝ)..2, ((2 * 2 - x) * change C87aux.quad 0 2 x - x * change C87aux.quad 0 2 x) := by
    refine intervalIntegral.intervalIntegral_pos_of_pos_on ((by fun_prop : Continuous fun x : ℝ =>
      (2 * 2 - x) * change C87aux.quad 0 2 x - x * change C87aux.quad 0 2 x).intervalIntegrable _ _) (fun x hx => ?_) (by norm_num)
    have hc : 0 < change C87aux.quad 0 2 x := by
      rw [C87aux.change_eq he]
      have hg : ∀ z, 0 < g C87aux.quad.meandO C87aux.quad.e2 z / √C87aux.quad.e2 := fun z => div_pos (g_pos _ _ _) (sqrt_pos.2 he)
      refine mul_pos (mul_pos ?_ ?_) (hg _)
      · have : Finset.Ico 2 (C87aux.quad.splineOrder + 1) = {2} := rfl
        rw [this, Finset.sum_singleton]
        have : (2 : ℝ) - x ≠ 0 := by linarith [hx.2]
        simp only [C87aux.quad, if_true, one_mul]
        positivity
      · simp only [C87aux.quad]
        norm_num
        linarith [hx.1]
    nlinarith [hx.2, mul_pos hc (sub_pos.2 hx.2)]
  rw [intervalIntegral.integral_sub ((by fun_prop : Continuous fun x : ℝ => (2 * 2 - x) * change C87aux.quad 0 2 x).intervalIntegrable _ _)
    ((by fun_prop : Continuous fun x : ℝ => x * change C87aux.quad 0 2 x).intervalIntegrable _ _)] at hpos
  linarith

end Verif

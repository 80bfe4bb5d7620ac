import Verif.Model.StaeckelAA

set_option autoImplicit false

/-!
# The turning points found by `actionAngleStaeckel`
-/

noncomputable section
namespace Verif.C78aux
open Real Set
open RootSearch (run Step uminUmaxStep uminUmaxFindStart vminStep vminFindStart)
open NFWVirial (Brentq)
open StaeckelAA (UminUmax Vmin)

theorem run_inv {α β : Type} (step : α → Step α β) (I : α → Prop) (Q : β → Prop) (hn : ∀ s s', I s → step s = .next s' → I s')
    (hd : ∀ s b, I s → step s = .done b → Q b) (n : ℕ) (s : α) (hs : I s) (b : β) (h : run step n s = some b) : Q b := by
  induction n generalizing s with
  | zero => simp [run] at h
  | succ n ih =>
    rw [run] at h
    split at h
    · exact ih _ (hn _ _ hs ‹_›) h
    · simp only [Option.some.injEq] at h
      exact h ▸ hd _ _ hs ‹_›

theorem run_ends {α β : Type} (step : α → Step α β) (I : α → Prop) (μ : α → ℝ) (c : ℝ) (hc : 0 < c) (h0 : ∀ s, I s → 0 ≤ μ s)
    (hn : ∀ s s', I s → step s = .next s' → I s' ∧ μ s' ≤ μ s - c) (s : α) (hs : I s) : ∃ n b, run step n s = some b := by
  obtain ⟨N, hN⟩ := exists_nat_ge (μ s / c)
  rw [div_le_iff₀ hc] at hN
  induction N generalizing s with
  | zero =>
    cases e : step s with
    | next s' =>
      have := hn s s' hs e
      have := h0 s' this.1
      simp only [Nat.cast_zero, zero_mul] at hN
      linarith
    | done b => exact ⟨1, b, by rw [run, e]⟩
  | succ N ih =>
    cases e : step s with
    | next s' =>
      obtain ⟨h1, h2⟩ := hn s s' hs e
      obtain ⟨n, b, hb⟩ := ih s' h1 (by push_cast at hN; linarith)
      exact ⟨n + 1, b, by rw [run, e]; exact hb⟩
    | done b => exact ⟨1, b, by rw [run, e]⟩

theorem brentq_ex (f : ℝ → ℝ) (lo hi : ℝ) (h : ∃ y, lo ≤ y ∧ y ≤ hi ∧ f y = 0) : ∃ x, Brentq f lo hi x := by
  obtain ⟨y, h1, h2, h3⟩ := h
  by_cases hc : f lo * f hi ≤ 0
  · exact ⟨some y, hc, h1, h2, h3⟩
  · exact ⟨none, not_le.1 hc⟩

/-- Positive between the zeros `a`, `b` and negative outside. -/
structure Sgn (S : ℝ → ℝ) (a b : ℝ) : Prop where
  a_pos : 2 / 10 ^ 8 ≤ a
  gap : a + 1 / 10 ^ 8 < b
  b_le : b ≤ 100
  za : S a = 0
  zb : S b = 0
  inside : ∀ u, a < u → u < b → 0 < S u
  outside : ∀ u, 0 < u → u < a ∨ b < u → S u < 0

namespace Sgn
variable {S : ℝ → ℝ} {a b : ℝ}

theorem a0 (h : Sgn S a b) : 0 < a := lt_of_lt_of_le (by norm_num) h.a_pos

theorem lt (h : Sgn S a b) : a < b := by linarith [h.gap, show (0 : ℝ) < 1 / 10 ^ 8 by norm_num]

theorem mem (h : Sgn S a b) {u : ℝ} (hu : 0 < u) (hS : 0 ≤ S u) : u ∈ Icc a b := by
  by_contra hn
  rw [mem_Icc, not_and_or, not_le, not_le] at hn
  linarith [h.outside u hu hn]

theorem nonneg (h : Sgn S a b) {u : ℝ} (hu : u ∈ Icc a b) : 0 ≤ S u := by
  rcases eq_or_lt_of_le hu.1 with e | e
  · rw [← e, h.za]
  rcases eq_or_lt_of_le hu.2 with e' | e'
  · rw [e', h.zb]
  exact (h.inside u e e').le

theorem zero (h : Sgn S a b) {u : ℝ} (hu : 0 < u) (hS : S u = 0) : u = a ∨ u = b := by
  have hm := h.mem hu hS.ge
  by_contra hn
  push Not at hn
  linarith [h.inside u (lt_of_le_of_ne hm.1 (Ne.symm hn.1)) (lt_of_le_of_ne hm.2 hn.2)]

theorem brentq_a (h : Sgn S a b) {lo hi : ℝ} (hlo : 0 < lo) (hlo' : lo < a) (hhi : a ≤ hi) (hb : hi < b) {o : Option ℝ}
    (ho : Brentq S lo hi o) : o = some a := by
  have h1 := h.outside lo hlo (Or.inl hlo')
  have h2 := h.nonneg ⟨hhi, hb.le⟩
  cases o with
  | none => have : 0 < S lo * S hi := ho; nlinarith
  | some x =>
    obtain ⟨-, hx1, hx2, hx0⟩ := ho
    rcases h.zero (by linarith) hx0 with e | e
    · rw [e]
    · linarith

theorem brentq_b (h : Sgn S a b) {lo hi : ℝ} (hlo : a < lo) (hlo' : lo ≤ b) (hhi : b < hi) {o : Option ℝ}
    (ho : Brentq S lo hi o) : o = some b := by
  have h1 := h.outside hi (by linarith [h.a0]) (Or.inr hhi)
  have h2 := h.nonneg ⟨hlo.le, hlo'⟩
  cases o with
  | none => have : 0 < S lo * S hi := ho; nlinarith
  | some x =>
    obtain ⟨-, hx1, hx2, hx0⟩ := ho
    rcases h.zero (by linarith [h.a0]) hx0 with e | e
    · linarith
    · rw [e]

theorem step_down (S : ℝ → ℝ) (s : ℝ × ℝ) : uminUmaxStep S false s =
    if S s.1 ≥ 0 ∧ s.1 > 1 / 10 ^ 9 then .next (s.1 * (9 / 10), s.1)
    else .done (some (if s.1 < 1 / 10 ^ 9 then (0, s.2) else s)) := by simp [uminUmaxStep]

theorem step_up (S : ℝ → ℝ) (s : ℝ × ℝ) : uminUmaxStep S true s =
    if S s.1 ≥ 0 ∧ s.1 > 1 / 10 ^ 9 then (if s.1 > 100 then .done none else .next (s.1 * (11 / 10), s.1))
    else .done (some (if s.1 < 1 / 10 ^ 9 then (0, s.2) else s)) := by simp [uminUmaxStep]

theorem down (h : Sgn S a b) {u : ℝ} (hu : u ∈ Icc a b) :
    (∃ n r, uminUmaxFindStart S u false n = some r) ∧
    ∀ n r, uminUmaxFindStart S u false n = some r → ∃ x prev, r = some (x, prev) ∧ 0 < x ∧ x < a ∧ a ≤ prev ∧ prev ≤ u := by
  have ha := h.a0
  have h8 := h.a_pos
  have h9 : (1 : ℝ) / 10 ^ 9 < 9 / 10 * (2 / 10 ^ 8) := by norm_num
  have hnext : ∀ s s' : ℝ × ℝ, (s.1 = s.2 * (9 / 10) ∧ a ≤ s.2 ∧ s.2 ≤ u) → uminUmaxStep S false s = .next s' →
      (s'.1 = s'.2 * (9 / 10) ∧ a ≤ s'.2 ∧ s'.2 ≤ u) ∧ s'.1 ≤ s.1 - a / 10 := by
    intro s s' hs e
    rw [step_down] at e
    split_ifs at e with h1
    simp only [Step.next.injEq] at e
    have hm := h.mem (u := s.1) (by rw [hs.1]; nlinarith [hs.2.1]) h1.1
    rw [← e]
    refine ⟨⟨rfl, hm.1, ?_⟩, ?_⟩
    · simp only
      rw [hs.1]
      nlinarith [hs.2.1, hs.2.2]
    · simp only
      linarith [hm.1]
  refine ⟨run_ends _ (fun s : ℝ × ℝ => s.1 = s.2 * (9 / 10) ∧ a ≤ s.2 ∧ s.2 ≤ u) (fun s => s.1) (a / 10) (by positivity)
    (fun s hs => by rw [hs.1]; nlinarith [hs.2.1]) hnext _ ⟨rfl, hu.1, le_rfl⟩, fun n r hr => ?_⟩
  refine run_inv (uminUmaxStep S false) (fun s : ℝ × ℝ => s.1 = s.2 * (9 / 10) ∧ a ≤ s.2 ∧ s.2 ≤ u)
    (fun r => ∃ x prev, r = some (x, prev) ∧ 0 < x ∧ x < a ∧ a ≤ prev ∧ prev ≤ u) (fun s s' hs e => (hnext s s' hs e).1)
    (fun s r hs e => ?_) n _ ⟨rfl, hu.1, le_rfl⟩ r hr
  have hpos : 1 / 10 ^ 9 < s.1 := by rw [hs.1]; linarith [hs.2.1]
  rw [step_down, if_neg (not_lt.2 hpos.le)] at e
  split_ifs at e with h1
  simp only [Step.done.injEq] at e
  have hS : S s.1 < 0 := by
    by_contra hn
    exact h1 ⟨not_lt.1 hn, hpos⟩
  have h0 : 0 < s.1 := lt_trans (by positivity) hpos
  refine ⟨s.1, s.2, e.symm, h0, ?_, hs.2.1, hs.2.2⟩
  by_contra hn
  push Not at hn
  have hsb : s.1 ≤ b := by rw [hs.1]; linarith [hs.2.2, hu.2, hs.2.1]
  linarith [h.nonneg ⟨hn, hsb⟩]

theorem up (h : Sgn S a b) {u : ℝ} (hu : u ∈ Icc a b) :
    (∃ n r, uminUmaxFindStart S u true n = some r) ∧
    ∀ n r, uminUmaxFindStart S u true n = some r → ∃ x prev, r = some (x, prev) ∧ b < x ∧ u ≤ prev ∧ prev ≤ b := by
  have ha := h.a0
  have h8 := h.a_pos
  have h9 : (1 : ℝ) / 10 ^ 9 < 2 / 10 ^ 8 := by norm_num
  have hnext : ∀ s s' : ℝ × ℝ, (s.1 = s.2 * (11 / 10) ∧ u ≤ s.2 ∧ s.2 ≤ b) → uminUmaxStep S true s = .next s' →
      (s'.1 = s'.2 * (11 / 10) ∧ u ≤ s'.2 ∧ s'.2 ≤ b) ∧ 2 * b - s'.1 ≤ 2 * b - s.1 - a / 10 := by
    intro s s' hs e
    rw [step_up] at e
    split_ifs at e with h1
    simp only [Step.next.injEq] at e
    have hpos : 0 < s.2 := by linarith [hu.1, hs.2.1]
    have hm := h.mem (u := s.1) (by rw [hs.1]; positivity) h1.1
    rw [← e]
    refine ⟨⟨rfl, ?_, hm.2⟩, ?_⟩
    · simp only
      rw [hs.1]
      linarith [hs.2.1]
    · simp only
      linarith [hm.1]
  refine ⟨run_ends _ (fun s : ℝ × ℝ => s.1 = s.2 * (11 / 10) ∧ u ≤ s.2 ∧ s.2 ≤ b) (fun s => 2 * b - s.1) (a / 10) (by positivity)
    (fun s hs => by rw [hs.1]; nlinarith [hs.2.1, hs.2.2, hu.1]) hnext _ ⟨rfl, le_rfl, hu.2⟩, fun n r hr => ?_⟩
  refine run_inv (uminUmaxStep S true) (fun s : ℝ × ℝ => s.1 = s.2 * (11 / 10) ∧ u ≤ s.2 ∧ s.2 ≤ b)
    (fun r => ∃ x prev, r = some (x, prev) ∧ b < x ∧ u ≤ prev ∧ prev ≤ b) (fun s s' hs e => (hnext s s' hs e).1)
    (fun s r hs e => ?_) n _ ⟨rfl, le_rfl, hu.2⟩ r hr
  have hpos' : 0 < s.2 := by linarith [hu.1, hs.2.1]
  have hpos : 1 / 10 ^ 9 < s.1 := by rw [hs.1]; linarith [hs.2.1, hu.1]
  have h0 : 0 < s.1 := lt_trans (by positivity) hpos
  rw [step_up, if_neg (not_lt.2 hpos.le)] at e
  split_ifs at e with h1 h2
  · have := (h.mem h0 h1.1).2
    linarith [h.b_le]
  simp only [Step.done.injEq] at e
  have hS : S s.1 < 0 := by
    by_contra hn
    exact h1 ⟨not_lt.1 hn, hpos⟩
  refine ⟨s.1, s.2, e.symm, ?_, hs.2.1, hs.2.2⟩
  by_contra hn
  push Not at hn
  have hsa : a ≤ s.1 := by rw [hs.1]; linarith [hs.2.1, hu.1]
  linarith [h.nonneg ⟨hsa, hn⟩]

/-- The turning points in `u`. -/
theorem uminumax (h : Sgn S a b) {u pu : ℝ} (hu : u ∈ Icc a b)
    (hp : (pu = 0 ∧ S u = 0) ∨ (1 / 10 ^ 7 ≤ |pu| ∧ 1 / 10 ^ 10 ≤ S u)) (o : Option (ℝ × ℝ)) :
    UminUmax S u pu o ↔ o = some (a, b) := by
  have ha := h.a0
  have h8 : (0 : ℝ) < 1 / 10 ^ 8 := by positivity
  have hgap := h.gap
  have ha8 := h.a_pos
  have h28 : (2 : ℝ) / 10 ^ 8 = 2 * (1 / 10 ^ 8) := by ring
  obtain ⟨⟨n1, r1, e1⟩, hdown⟩ := h.down hu
  obtain ⟨⟨n2, r2, e2⟩, hup⟩ := h.up hu
  unfold UminUmax
  rcases hp with ⟨hp, hS⟩ | ⟨hp, hS⟩
  · rw [if_pos (Or.inl (by rw [hp, abs_zero]; positivity))]
    rcases h.zero (ha.trans_le hu.1) hS with e | e
    · -- at the inner turning point
      subst e
      have hm : S (u - 1 / 10 ^ 8) < 0 := h.outside _ (by linarith) (Or.inl (by linarith))
      have hpl : 0 < S (u + 1 / 10 ^ 8) := h.inside _ (by linarith) hgap
      rw [if_neg (fun hh => absurd hh.1 (not_lt.2 hpl.le)), if_pos ⟨hpl, hm⟩]
      constructor
      · rintro ⟨n, r, hr, hh⟩
        obtain ⟨x, prev, rfl, hx, -, -⟩ := hup n r hr
        obtain ⟨y, hy, rfl⟩ := hh
        rw [h.brentq_b (by linarith) hgap.le hx hy]
        rfl
      · rintro rfl
        obtain ⟨x, prev, rfl, hx, -, -⟩ := hup n2 r2 e2
        obtain ⟨y, hy⟩ := brentq_ex S (u + 1 / 10 ^ 8) x ⟨b, hgap.le, hx.le, h.zb⟩
        refine ⟨n2, _, e2, y, hy, ?_⟩
        rw [h.brentq_b (by linarith) hgap.le hx hy]
        rfl
    · -- at the outer turning point
      subst e
      have hpl : S (u + 1 / 10 ^ 8) < 0 := h.outside _ (by linarith [hu.1]) (Or.inr (by linarith))
      have hm : 0 < S (u - 1 / 10 ^ 8) := h.inside _ (by linarith) (by linarith)
      rw [if_pos ⟨hpl, hm⟩]
      constructor
      · rintro ⟨n, r, hr, hh⟩
        obtain ⟨x, prev, rfl, hx0, hx, -, -⟩ := hdown n r hr
        simp only [hx0.ne', if_false] at hh
        obtain ⟨y, hy, rfl⟩ := hh
        rw [h.brentq_a hx0 hx (by linarith) (by linarith) hy]
        rfl
      · rintro rfl
        obtain ⟨x, prev, rfl, hx0, hx, -, -⟩ := hdown n1 r1 e1
        obtain ⟨y, hy⟩ := brentq_ex S x (u - 1 / 10 ^ 8) ⟨a, hx.le, by linarith, h.za⟩
        refine ⟨n1, _, e1, ?_⟩
        simp only [hx0.ne', if_false]
        refine ⟨y, hy, ?_⟩
        rw [h.brentq_a hx0 hx (by linarith) (by linarith) hy]
        rfl
  · have hS0 : 0 < S u := lt_of_lt_of_le (by positivity) hS
    have hul : a < u := lt_of_le_of_ne hu.1 fun e => by rw [← e, h.za] at hS0; exact lt_irrefl _ hS0
    have hur : u < b := lt_of_le_of_ne hu.2 fun e => by rw [e, h.zb] at hS0; exact lt_irrefl _ hS0
    rw [if_neg (not_or.2 ⟨not_lt.2 hp, not_lt.2 (by rw [abs_of_pos hS0]; exact hS)⟩)]
    have hrup : ∀ prev, a ≤ prev → prev ≤ u → a ≤ (if |prev - u| < 1 / 10 ^ 2 then u else prev) ∧
        (if |prev - u| < 1 / 10 ^ 2 then u else prev) < b := by
      intro prev h1 h2
      split_ifs
      · exact ⟨hu.1, hur⟩
      · exact ⟨h1, by linarith⟩
    constructor
    · rintro ⟨n, r, hr, hh⟩
      obtain ⟨x, prev, rfl, hx0, hx, hp1, hp2⟩ := hdown n r hr
      simp only [hx0.ne', if_false] at hh
      obtain ⟨um, hum, hh⟩ := hh
      rw [h.brentq_a hx0 hx (hrup prev hp1 hp2).1 (hrup prev hp1 hp2).2 hum] at hh
      obtain ⟨n', r', hr', hh⟩ := hh
      obtain ⟨x', prev', rfl, hx', hp1', hp2'⟩ := hup n' r' hr'
      obtain ⟨y, hy, rfl⟩ := hh
      rw [h.brentq_b (by linarith) hp2' hx' hy]
      rfl
    · rintro rfl
      obtain ⟨x, prev, rfl, hx0, hx, hp1, hp2⟩ := hdown n1 r1 e1
      obtain ⟨x', prev', rfl, hx', hp1', hp2'⟩ := hup n2 r2 e2
      obtain ⟨y, hy⟩ := brentq_ex S x (if |prev - u| < 1 / 10 ^ 2 then u else prev) ⟨a, hx.le, (hrup prev hp1 hp2).1, h.za⟩
      obtain ⟨y', hy'⟩ := brentq_ex S prev' x' ⟨b, hp2', hx'.le, h.zb⟩
      have ey := h.brentq_a hx0 hx (hrup prev hp1 hp2).1 (hrup prev hp1 hp2).2 hy
      have ey' := h.brentq_b (by linarith) hp2' hx' hy'
      subst ey
      subst ey'
      refine ⟨n1, _, e1, ?_⟩
      simp only [hx0.ne', if_false]
      exact ⟨_, hy, n2, _, e2, _, hy', rfl⟩

end Sgn

/-- The turning point in `v`. -/
theorem vmin {S : ℝ → ℝ} {c v pv : ℝ} (hc : 2 / 10 ^ 8 ≤ c) (zc : S c = 0) (below : ∀ x, 0 < x → x < c → S x < 0)
    (inside : ∀ x, c < x → x < π - c → 0 < S x)
    (hp : (pv = 0 ∧ v = c) ∨ (1 / 10 ^ 7 ≤ |pv| ∧ c < v ∧ v < π - c)) (o : Option ℝ) :
    Vmin S v pv o ↔ o = some c := by
  have h8 : (0 : ℝ) < 1 / 10 ^ 8 := by positivity
  have h28 : (2 : ℝ) / 10 ^ 8 = 2 * (1 / 10 ^ 8) := by ring
  have hc0 : 0 < c := by linarith
  unfold Vmin
  rcases hp with ⟨rfl, rfl⟩ | ⟨hp, hv1, hv2⟩
  · rw [if_pos (by rw [abs_zero]; positivity), if_neg]
    intro hh
    have := below (v - 1 / 10 ^ 8) (by linarith) (by linarith)
    linarith [hh.2]
  · rw [if_neg (not_lt.2 hp)]
    have hnn : ∀ x, c ≤ x → x ≤ v → 0 ≤ S x := fun x h1 h2 => by
      rcases eq_or_lt_of_le h1 with e | e
      · rw [← e, zc]
      · exact (inside x e (by linarith)).le
    have h9 : (1 : ℝ) / 10 ^ 9 < 9 / 10 * (2 / 10 ^ 8) := by norm_num
    have hnext : ∀ s s' : ℝ, (9 / 10 * c ≤ s ∧ s ≤ 9 / 10 * v) → vminStep S s = .next s' →
        (9 / 10 * c ≤ s' ∧ s' ≤ 9 / 10 * v) ∧ s' ≤ s - c / 20 := by
      intro s s' hs e
      unfold vminStep at e
      split_ifs at e with h1
      simp only [Step.next.injEq] at e
      have hsc : c ≤ s := by
        by_contra hn
        linarith [below s (by linarith [hs.1]) (not_le.1 hn), h1.1]
      rw [← e]
      exact ⟨⟨by linarith, by linarith [hs.1, hs.2]⟩, by linarith⟩
    have hends : ∃ n r, vminFindStart S v n = some r :=
      run_ends _ (fun s : ℝ => 9 / 10 * c ≤ s ∧ s ≤ 9 / 10 * v) (fun s => s) (c / 20) (by positivity)
        (fun s hs => by linarith [hs.1]) hnext _ ⟨by linarith, le_rfl⟩
    have hres : ∀ n r, vminFindStart S v n = some r → 0 < r ∧ r < c ∧ c ≤ r / (9 / 10) ∧ r / (9 / 10) ≤ v := by
      intro n r hr
      refine run_inv (vminStep S) (fun s : ℝ => 9 / 10 * c ≤ s ∧ s ≤ 9 / 10 * v)
        (fun r => 0 < r ∧ r < c ∧ c ≤ r / (9 / 10) ∧ r / (9 / 10) ≤ v) (fun s s' hs e => (hnext s s' hs e).1)
        (fun s r hs e => ?_) n _ ⟨by linarith, le_rfl⟩ r hr
      have hpos : 1 / 10 ^ 9 < s := by linarith [hs.1]
      unfold vminStep at e
      rw [if_neg (not_lt.2 hpos.le)] at e
      split_ifs at e with h1
      simp only [Step.done.injEq] at e
      subst e
      refine ⟨by linarith [hs.1], ?_, by rw [le_div_iff₀ (by norm_num)]; linarith [hs.1],
        by rw [div_le_iff₀ (by norm_num)]; linarith [hs.2]⟩
      by_contra hn
      exact h1 ⟨hnn s (not_lt.1 hn) (by linarith [hs.2, hs.1]), hpos⟩
    have hbq : ∀ r, 0 < r → r < c → c ≤ r / (9 / 10) → r / (9 / 10) ≤ v → ∀ o, Brentq S r (r / (9 / 10)) o → o = some c := by
      intro r h0 h1 h2 h3 o ho
      have hneg := below r h0 h1
      have hpos := hnn _ h2 h3
      cases o with
      | none => have : 0 < S r * S (r / (9 / 10)) := ho; nlinarith
      | some x =>
        obtain ⟨-, hx1, hx2, hx0⟩ := ho
        congr 1
        by_contra hn
        rcases lt_or_gt_of_ne hn with e | e
        · linarith [below x (by linarith) e]
        · linarith [inside x e (by linarith)]
    constructor
    · rintro ⟨n, r, hr, hh⟩
      obtain ⟨h0, h1, h2, h3⟩ := hres n r hr
      rw [if_neg h0.ne'] at hh
      exact hbq r h0 h1 h2 h3 o hh
    · rintro rfl
      obtain ⟨n, r, hr⟩ := hends
      obtain ⟨h0, h1, h2, h3⟩ := hres n r hr
      obtain ⟨y, hy⟩ := brentq_ex S r (r / (9 / 10)) ⟨c, h1.le, h2, zc⟩
      refine ⟨n, r, hr, ?_⟩
      rw [if_neg h0.ne', ← hbq r h0 h1 h2 h3 y hy]
      exact hy

end Verif.C78aux

import Verif.Util.QuadConv
import Verif.Model.DF.QuasiIso
import Mathlib.Analysis.SpecialFunctions.Integrals.Basic

set_option autoImplicit false

/-!
# Sums over Gauss-Legendre nodes converge to integrals over boxes
-/

noncomputable section
namespace Verif.QuasiIso
open Real Filter Topology
open SCF (Rule)

/-- Nodes and weights on both sides or only on the positive one. -/
abbrev ax (full : Bool) (leg : ℕ → Rule) (ngl : ℕ) (h : ℝ) : List (ℝ × ℝ) := axis (!full) leg ngl h

theorem pos_ax (leg : ℕ → Rule) (ngl : ℕ) (h : ℝ) : pos leg ngl h = ax false leg ngl h := by simp [axis]

/-- The lower end of the range of an axis. -/
def lo (full : Bool) (h : ℝ) : ℝ := if full then -h else 0

/-- The values of a function at the images of a node. -/
def E (full : Bool) (h : ℝ) (g : ℝ → ℝ) (x : ℝ) : ℝ := if full then g (h / 2 * (x + 1)) + g (-h / 2 * (x + 1)) else g (h / 2 * (x + 1))

/-- Number of nodes on a side. -/
def ord (full : Bool) (k : ℕ) : ℕ := if full then k else 2 * k

theorem ord_tendsto (full : Bool) : Tendsto (ord full) atTop atTop := by
  unfold ord
  cases full
  · simp only [Bool.false_eq_true, if_false]
    exact tendsto_id.const_mul_atTop' two_pos
  · simp only [if_true]; exact tendsto_id

theorem sum_range {K : ℕ} (g : ℕ → ℝ) : ((List.range K).map g).sum = ∑ i ∈ Finset.range K, g i := by
  induction K with
  | zero => simp
  | succ K ih => simp [List.range_succ, Finset.sum_range_succ, ih]

theorem S1 (full : Bool) (leg : ℕ → Rule) (k : ℕ) (h : ℝ) (g : ℝ → ℝ) :
    ((ax full leg (2 * k) h).map fun q => g q.1 * q.2).sum
      = ∑ i ∈ Finset.range (ord full k), (leg (ord full k)).w i * E full h g ((leg (ord full k)).x i) := by
  cases full
  · simp only [axis, Bool.not_false, if_true, pos, nodes, List.map_map, ord, E, Bool.false_eq_true, if_false]
    rw [← sum_range]
    congr 1
    exact List.map_congr_left fun i _ => by simp only [Function.comp]; ring
  · have e : 2 * k / 2 = k := by omega
    simp only [axis, Bool.not_true, Bool.false_eq_true, if_false, pos, neg, nodes, List.map_append, List.map_map, List.sum_append, ord, E, if_true, e]
    rw [← sum_range, ← List.sum_map_add]
    congr 1
    exact List.map_congr_left fun i _ => by simp only [Function.comp]; ring

/-- The sum in three variables as in the code. -/
theorem S3 (b₁ b₂ b₃ : Bool) (leg : ℕ → Rule) (k : ℕ) (h₁ h₂ h₃ : ℝ) (G : ℝ → ℝ → ℝ → ℝ) :
    ((ax b₁ leg (2 * k) h₁).map fun p => ((ax b₂ leg (2 * k) h₂).map fun q => ((ax b₃ leg (2 * k) h₃).map fun r =>
      G p.1 q.1 r.1 * p.2 * q.2 * r.2).sum).sum).sum
      = QuadConv.Q3 leg (ord b₁ k) (ord b₂ k) (ord b₃ k) fun x y z => E b₁ h₁ (fun p => E b₂ h₂ (fun q => E b₃ h₃ (fun r => G p q r) z) y) x := by
  have e3 : ∀ p q : ℝ × ℝ, ((ax b₃ leg (2 * k) h₃).map fun r => G p.1 q.1 r.1 * p.2 * q.2 * r.2).sum
      = (∑ l ∈ Finset.range (ord b₃ k), (leg (ord b₃ k)).w l * E b₃ h₃ (fun r => G p.1 q.1 r) ((leg (ord b₃ k)).x l)) * q.2 * p.2 := fun p q => by
    rw [← S1, mul_assoc, ← List.sum_map_mul_right]
    exact congrArg _ (List.map_congr_left fun r _ => by ring)
  have e2 : ∀ p : ℝ × ℝ, ((ax b₂ leg (2 * k) h₂).map fun q => ((ax b₃ leg (2 * k) h₃).map fun r => G p.1 q.1 r.1 * p.2 * q.2 * r.2).sum).sum
      = (∑ j ∈ Finset.range (ord b₂ k), (leg (ord b₂ k)).w j * E b₂ h₂ (fun q => ∑ l ∈ Finset.range (ord b₃ k),
        (leg (ord b₃ k)).w l * E b₃ h₃ (fun r => G p.1 q r) ((leg (ord b₃ k)).x l)) ((leg (ord b₂ k)).x j)) * p.2 := fun p => by
    simp only [e3]
    rw [← S1, ← List.sum_map_mul_right]
  simp only [e2]
  rw [S1 (g := fun p => ∑ j ∈ Finset.range (ord b₂ k), (leg (ord b₂ k)).w j * E b₂ h₂ (fun q => ∑ l ∈ Finset.range (ord b₃ k),
        (leg (ord b₃ k)).w l * E b₃ h₃ (fun r => G p q r) ((leg (ord b₃ k)).x l)) ((leg (ord b₂ k)).x j))]
  have lin : ∀ (b : Bool) (h x : ℝ) (s : Finset ℕ) (w : ℕ → ℝ) (g : ℕ → ℝ → ℝ), E b h (fun p => ∑ j ∈ s, w j * g j p) x = ∑ j ∈ s, w j * E b h (g j) x :=
    fun b h x s w g => by
      cases b
      · simp [E]
      · simp [E, ← Finset.sum_add_distrib, mul_add]
  unfold QuadConv.Q3
  refine Finset.sum_congr rfl fun i _ => ?_
  rw [lin, Finset.mul_sum]
  refine Finset.sum_congr rfl fun j _ => ?_
  have : ∀ p, E b₂ h₂ (fun q => ∑ l ∈ Finset.range (ord b₃ k), (leg (ord b₃ k)).w l * E b₃ h₃ (fun r => G p q r) ((leg (ord b₃ k)).x l)) ((leg (ord b₂ k)).x j)
      = ∑ l ∈ Finset.range (ord b₃ k), (leg (ord b₃ k)).w l * E b₂ h₂ (fun q => E b₃ h₃ (fun r => G p q r) ((leg (ord b₃ k)).x l)) ((leg (ord b₂ k)).x j) :=
    fun p => lin _ _ _ _ _ _
  simp only [this]
  rw [lin, Finset.mul_sum, Finset.mul_sum]
  exact Finset.sum_congr rfl fun l _ => by ring

/-! ### Integrals -/

theorem E_cont {α : Type*} [TopologicalSpace α] (full : Bool) (h : ℝ) {g : α → ℝ → ℝ} (hg : Continuous fun p : α × ℝ => g p.1 p.2) {x : α → ℝ} (hx : Continuous x) :
    Continuous fun a => E full h (g a) (x a) := by
  have c : ∀ s : ℝ, Continuous fun a => g a (s / 2 * (x a + 1)) := fun s =>
    Continuous.comp (g := fun p : α × ℝ => g p.1 p.2) hg (f := fun a => (a, s / 2 * (x a + 1))) (by fun_prop)
  cases full
  · simpa [E] using c h
  · simp only [E, if_true]; exact (c h).add (c (-h))

theorem E_int (full : Bool) (h x : ℝ) {H : ℝ → ℝ → ℝ} (hc : ∀ r, Continuous (H r)) :
    ∫ z in (-1 : ℝ)..1, E full h (fun r => H r z) x = E full h (fun r => ∫ z in (-1 : ℝ)..1, H r z) x := by
  cases full
  · simp [E]
  · simp only [E, if_true]
    exact intervalIntegral.integral_add ((hc _).intervalIntegrable _ _) ((hc _).intervalIntegrable _ _)

theorem axis_int (full : Bool) (h : ℝ) {g : ℝ → ℝ} (hg : Continuous g) :
    (h / 2) * ∫ x in (-1 : ℝ)..1, E full h g x = ∫ v in (lo full h)..h, g v := by
  have p : (h / 2) * ∫ x in (-1 : ℝ)..1, g (h / 2 * (x + 1)) = ∫ v in (0 : ℝ)..h, g v := by
    have := intervalIntegral.mul_integral_comp_mul_add (f := g) (a := -1) (b := 1) (h / 2) (h / 2)
    rw [show h / 2 * -1 + h / 2 = 0 by ring, show h / 2 * 1 + h / 2 = h by ring] at this
    rw [← this]
    simp only [mul_add, mul_one]
  have q : (h / 2) * ∫ x in (-1 : ℝ)..1, g (-h / 2 * (x + 1)) = ∫ v in (-h)..0, g v := by
    have := intervalIntegral.mul_integral_comp_mul_add (f := g) (a := -1) (b := 1) (-h / 2) (-h / 2)
    rw [show -h / 2 * -1 + -h / 2 = 0 by ring, show -h / 2 * 1 + -h / 2 = -h by ring] at this
    rw [intervalIntegral.integral_symm (0 : ℝ) (-h), ← this]
    simp only [mul_add, mul_one]
    ring
  cases full
  · simpa [E, lo] using p
  · simp only [E, lo, if_true]
    rw [intervalIntegral.integral_add ((by fun_prop : Continuous fun x : ℝ => g (h / 2 * (x + 1))).intervalIntegrable _ _)
      ((by fun_prop : Continuous fun x : ℝ => g (-h / 2 * (x + 1))).intervalIntegrable _ _), mul_add, p, q, add_comm,
      intervalIntegral.integral_add_adjacent_intervals (hg.intervalIntegrable _ _) (hg.intervalIntegrable _ _)]

def box (b₁ b₂ b₃ : Bool) (h₁ h₂ h₃ : ℝ) : Set (ℝ × ℝ × ℝ) := Set.Icc (lo b₁ h₁) h₁ ×ˢ Set.Icc (lo b₂ h₂) h₂ ×ˢ Set.Icc (lo b₃ h₃) h₃

theorem I3_box (b₁ b₂ b₃ : Bool) (h₁ h₂ h₃ : ℝ) {G : ℝ → ℝ → ℝ → ℝ} (hG : QuadConv.Cont G) :
    (QuadConv.I3 fun x y z => E b₁ h₁ (fun p => E b₂ h₂ (fun q => E b₃ h₃ (fun r => G p q r) z) y) x) * (h₁ / 2 * (h₂ / 2) * (h₃ / 2))
      = ∫ p in (lo b₁ h₁)..h₁, ∫ q in (lo b₂ h₂)..h₂, ∫ r in (lo b₃ h₃)..h₃, G p q r := by
  have g3 : ∀ p q, Continuous fun r => G p q r := fun p q => QuadConv.cont1 hG p q
  have a1 : Continuous fun w : (ℝ × ℝ × ℝ) × ℝ => G w.1.1 w.1.2.1 w.2 :=
    Continuous.comp (g := fun p : ℝ × ℝ × ℝ => G p.1 p.2.1 p.2.2) hG (f := fun w : (ℝ × ℝ × ℝ) × ℝ => (w.1.1, w.1.2.1, w.2)) (by fun_prop)
  have c3 : Continuous fun w : ℝ × ℝ × ℝ => E b₃ h₃ (fun r => G w.1 w.2.1 r) w.2.2 :=
    E_cont b₃ h₃ (g := fun (w : ℝ × ℝ × ℝ) r => G w.1 w.2.1 r) a1 (by fun_prop : Continuous fun w : ℝ × ℝ × ℝ => w.2.2)
  -- after the innermost integral
  let H : ℝ → ℝ → ℝ := fun p q => ∫ z in (-1 : ℝ)..1, E b₃ h₃ (fun r => G p q r) z
  have hH : Continuous fun w : ℝ × ℝ => H w.1 w.2 :=
    QuadConv.cont2 (F := fun p q z => E b₃ h₃ (fun r => G p q r) z) c3
  have c3' : ∀ p q, Continuous fun z => E b₃ h₃ (fun r => G p q r) z := fun p q => by
    exact c3.comp (by fun_prop : Continuous fun z : ℝ => ((p, q, z) : ℝ × ℝ × ℝ))
  have c2 : Continuous fun w : ℝ × ℝ × ℝ => E b₂ h₂ (fun q => E b₃ h₃ (fun r => G w.1 q r) w.2.1) w.2.2 := by
    refine E_cont b₂ h₂ (g := fun (w : ℝ × ℝ × ℝ) q => E b₃ h₃ (fun r => G w.1 q r) w.2.1) ?_ (by fun_prop : Continuous fun w : ℝ × ℝ × ℝ => w.2.2)
    exact c3.comp (by fun_prop : Continuous fun w : (ℝ × ℝ × ℝ) × ℝ => ((w.1.1, w.2, w.1.2.1) : ℝ × ℝ × ℝ))
  have s1 : ∀ x y, ∫ z in (-1 : ℝ)..1, E b₁ h₁ (fun p => E b₂ h₂ (fun q => E b₃ h₃ (fun r => G p q r) z) y) x
      = E b₁ h₁ (fun p => E b₂ h₂ (fun q => H p q) y) x := fun x y => by
    rw [E_int b₁ h₁ x (H := fun p z => E b₂ h₂ (fun q => E b₃ h₃ (fun r => G p q r) z) y)]
    · congr 1
      funext p
      exact E_int b₂ h₂ y (H := fun q z => E b₃ h₃ (fun r => G p q r) z) fun q => c3' p q
    · intro p
      exact c2.comp (by fun_prop : Continuous fun z : ℝ => ((p, z, y) : ℝ × ℝ × ℝ))
  let J : ℝ → ℝ := fun p => ∫ y in (-1 : ℝ)..1, E b₂ h₂ (fun q => H p q) y
  have cH : Continuous fun w : ℝ × ℝ => E b₂ h₂ (fun q => H w.1 q) w.2 := by
    refine E_cont b₂ h₂ (g := fun (w : ℝ × ℝ) q => H w.1 q) ?_ (by fun_prop : Continuous fun w : ℝ × ℝ => w.2)
    exact hH.comp (by fun_prop : Continuous fun w : (ℝ × ℝ) × ℝ => ((w.1.1, w.2) : ℝ × ℝ))
  have hJ : Continuous J := intervalIntegral.continuous_parametric_intervalIntegral_of_continuous' (f := fun p y => E b₂ h₂ (fun q => H p q) y) cH _ _
  have s2 : ∀ x, ∫ y in (-1 : ℝ)..1, E b₁ h₁ (fun p => E b₂ h₂ (fun q => H p q) y) x = E b₁ h₁ J x := fun x =>
    E_int b₁ h₁ x (H := fun p y => E b₂ h₂ (fun q => H p q) y) fun p => by
      exact cH.comp (by fun_prop : Continuous fun y : ℝ => ((p, y) : ℝ × ℝ))
  unfold QuadConv.I3
  simp only [s1, s2]
  have f3 : ∀ p q, (h₃ / 2) * H p q = ∫ r in (lo b₃ h₃)..h₃, G p q r := fun p q => axis_int b₃ h₃ (g3 p q)
  have f2 : ∀ p, (h₂ / 2) * J p = ∫ q in (lo b₂ h₂)..h₂, H p q := fun p => by
    exact axis_int b₂ h₂ (g := fun q => H p q) (hH.comp (by fun_prop : Continuous fun q : ℝ => ((p, q) : ℝ × ℝ)))
  have f1 : (h₁ / 2) * (∫ x in (-1 : ℝ)..1, E b₁ h₁ J x) = ∫ p in (lo b₁ h₁)..h₁, J p := axis_int b₁ h₁ hJ
  calc (∫ x in (-1 : ℝ)..1, E b₁ h₁ J x) * (h₁ / 2 * (h₂ / 2) * (h₃ / 2))
      = ((h₁ / 2) * (∫ x in (-1 : ℝ)..1, E b₁ h₁ J x)) * (h₂ / 2) * (h₃ / 2) := by ring
    _ = ∫ p in (lo b₁ h₁)..h₁, J p * (h₂ / 2) * (h₃ / 2) := by
        rw [f1, intervalIntegral.integral_mul_const, intervalIntegral.integral_mul_const]
    _ = ∫ p in (lo b₁ h₁)..h₁, ∫ q in (lo b₂ h₂)..h₂, ∫ r in (lo b₃ h₃)..h₃, G p q r := by
        refine intervalIntegral.integral_congr fun p _ => ?_
        show J p * (h₂ / 2) * (h₃ / 2) = ∫ q in (lo b₂ h₂)..h₂, ∫ r in (lo b₃ h₃)..h₃, G p q r
        rw [mul_comm (J p), f2]
        rw [← intervalIntegral.integral_mul_const]
        refine intervalIntegral.integral_congr fun q _ => ?_
        show H p q * (h₃ / 2) = ∫ r in (lo b₃ h₃)..h₃, G p q r
        rw [mul_comm, f3]

theorem lo_le (b : Bool) {h : ℝ} (hh : 0 < h) : lo b h ≤ h := by
  cases b <;> simp [lo] <;> linarith

/-- The sums, times half the length of each side, converge to the integral over the box. -/
theorem tendsto_box {leg : ℕ → Rule} (hl : ∀ K, (leg K).Gauss K) (b₁ b₂ b₃ : Bool) {h₁ h₂ h₃ : ℝ} (p₁ : 0 < h₁) (p₂ : 0 < h₂) (p₃ : 0 < h₃)
    {G : ℝ → ℝ → ℝ → ℝ} (hG : ContinuousOn (fun p : ℝ × ℝ × ℝ => G p.1 p.2.1 p.2.2) (box b₁ b₂ b₃ h₁ h₂ h₃)) :
    Tendsto (fun k => ((ax b₁ leg (2 * k) h₁).map fun p => ((ax b₂ leg (2 * k) h₂).map fun q => ((ax b₃ leg (2 * k) h₃).map fun r =>
      G p.1 q.1 r.1 * p.2 * q.2 * r.2).sum).sum).sum * (h₁ / 2 * (h₂ / 2) * (h₃ / 2))) atTop
      (𝓝 (∫ p in (lo b₁ h₁)..h₁, ∫ q in (lo b₂ h₂)..h₂, ∫ r in (lo b₃ h₃)..h₃, G p q r)) := by
  -- a continuous function with the same values in the box
  let pr : ℝ → ℝ → ℝ → ℝ := fun l h x => max l (min h x)
  have prc : ∀ l h, Continuous (pr l h) := fun l h => by fun_prop
  have prm : ∀ {l h}, l ≤ h → ∀ x, pr l h x ∈ Set.Icc l h := fun hh x => ⟨le_max_left _ _, max_le hh (min_le_left _ _)⟩
  have pre : ∀ {l h x}, x ∈ Set.Icc l h → pr l h x = x := fun {l h x} hx => by
    simp only [pr]; rw [min_eq_right hx.2, max_eq_right hx.1]
  let G' : ℝ → ℝ → ℝ → ℝ := fun p q r => G (pr (lo b₁ h₁) h₁ p) (pr (lo b₂ h₂) h₂ q) (pr (lo b₃ h₃) h₃ r)
  have hG' : QuadConv.Cont G' := by
    have c : Continuous fun p : ℝ × ℝ × ℝ => (pr (lo b₁ h₁) h₁ p.1, pr (lo b₂ h₂) h₂ p.2.1, pr (lo b₃ h₃) h₃ p.2.2) :=
      ((prc _ _).comp continuous_fst).prodMk (((prc _ _).comp (by fun_prop)).prodMk ((prc _ _).comp (by fun_prop)))
    exact hG.comp_continuous c fun p => ⟨prm (lo_le b₁ p₁) _, prm (lo_le b₂ p₂) _, prm (lo_le b₃ p₃) _⟩
  have mem : ∀ (b : Bool) {h : ℝ}, 0 < h → ∀ k, ∀ q ∈ ax b leg (2 * k) h, q.1 ∈ Set.Icc (lo b h) h := fun b {h} hh k q hq => by
    have inn : ∀ {K i}, i < K → -1 < (leg K).x i ∧ (leg K).x i < 1 := fun hi => (hl _).inside _ hi
    cases b
    · simp only [axis, Bool.not_false, if_true, pos, nodes, List.mem_map, List.mem_range] at hq
      obtain ⟨w, ⟨i, hi, rfl⟩, rfl⟩ := hq
      have := inn hi
      simp only [lo, Bool.false_eq_true, if_false]
      constructor <;> nlinarith
    · simp only [axis, Bool.not_true, Bool.false_eq_true, if_false, pos, neg, nodes, List.mem_append, List.mem_map, List.mem_range] at hq
      simp only [lo, if_true]
      rcases hq with ⟨w, ⟨i, hi, rfl⟩, rfl⟩ | ⟨w, ⟨i, hi, rfl⟩, rfl⟩ <;> have := inn hi <;> constructor <;> nlinarith
  have e1 : ∀ k, ((ax b₁ leg (2 * k) h₁).map fun p => ((ax b₂ leg (2 * k) h₂).map fun q => ((ax b₃ leg (2 * k) h₃).map fun r =>
      G p.1 q.1 r.1 * p.2 * q.2 * r.2).sum).sum).sum = ((ax b₁ leg (2 * k) h₁).map fun p => ((ax b₂ leg (2 * k) h₂).map fun q =>
      ((ax b₃ leg (2 * k) h₃).map fun r => G' p.1 q.1 r.1 * p.2 * q.2 * r.2).sum).sum).sum := fun k =>
    congrArg _ (List.map_congr_left fun p hp => congrArg _ (List.map_congr_left fun q hq => congrArg _ (List.map_congr_left fun r hr => by
      simp only [G', pre (mem b₁ p₁ k p hp), pre (mem b₂ p₂ k q hq), pre (mem b₃ p₃ k r hr)])))
  have u : ∀ (b : Bool) {h : ℝ}, 0 < h → ∀ {x : ℝ}, x ∈ Set.uIcc (lo b h) h → x ∈ Set.Icc (lo b h) h := fun b {h} hh x hx => by
    rwa [Set.uIcc_of_le (lo_le b hh)] at hx
  have e2 : (∫ p in (lo b₁ h₁)..h₁, ∫ q in (lo b₂ h₂)..h₂, ∫ r in (lo b₃ h₃)..h₃, G p q r)
      = ∫ p in (lo b₁ h₁)..h₁, ∫ q in (lo b₂ h₂)..h₂, ∫ r in (lo b₃ h₃)..h₃, G' p q r :=
    intervalIntegral.integral_congr fun p hp => intervalIntegral.integral_congr fun q hq => intervalIntegral.integral_congr fun r hr => by
      simp only [G', pre (u b₁ p₁ hp), pre (u b₂ p₂ hq), pre (u b₃ p₃ hr)]
  rw [e2, ← I3_box b₁ b₂ b₃ h₁ h₂ h₃ hG']
  refine Tendsto.mul_const _ ?_
  simp only [e1, S3]
  refine QuadConv.tendsto3 hl (ord_tendsto b₁) (ord_tendsto b₂) (ord_tendsto b₃) ?_
  refine Continuous.continuousOn ?_
  have a1 : Continuous fun w : (ℝ × ℝ × ℝ × ℝ × ℝ) × ℝ => G' w.1.2.2.2.1 w.1.2.2.2.2 w.2 :=
    Continuous.comp (g := fun p : ℝ × ℝ × ℝ => G' p.1 p.2.1 p.2.2) hG' (f := fun w : (ℝ × ℝ × ℝ × ℝ × ℝ) × ℝ => (w.1.2.2.2.1, w.1.2.2.2.2, w.2)) (by fun_prop)
  have a2 := E_cont b₃ h₃ (g := fun (w : ℝ × ℝ × ℝ × ℝ × ℝ) r => G' w.2.2.2.1 w.2.2.2.2 r) a1 (by fun_prop : Continuous fun w : ℝ × ℝ × ℝ × ℝ × ℝ => w.2.2.1)
  have a3 := E_cont b₂ h₂ (g := fun (w : ℝ × ℝ × ℝ × ℝ) q => E b₃ h₃ (fun r => G' w.2.2.2 q r) w.2.2.1)
    (a2.comp (by fun_prop : Continuous fun w : (ℝ × ℝ × ℝ × ℝ) × ℝ => ((w.1.1, w.1.2.1, w.1.2.2.1, w.1.2.2.2, w.2) : ℝ × ℝ × ℝ × ℝ × ℝ)))
    (by fun_prop : Continuous fun w : ℝ × ℝ × ℝ × ℝ => w.2.1)
  exact E_cont b₁ h₁ (g := fun (w : ℝ × ℝ × ℝ) p => E b₂ h₂ (fun q => E b₃ h₃ (fun r => G' p q r) w.2.2) w.2.1)
    (a3.comp (by fun_prop : Continuous fun w : (ℝ × ℝ × ℝ) × ℝ => ((w.1.1, w.1.2.1, w.1.2.2, w.2) : ℝ × ℝ × ℝ × ℝ)))
    (by fun_prop : Continuous fun w : ℝ × ℝ × ℝ => w.1)

end Verif.QuasiIso

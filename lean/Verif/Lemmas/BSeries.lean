import Verif.Lemmas.Trees
import Mathlib.Analysis.Analytic.Basic
import Mathlib.Analysis.Calculus.MeanValue
import Mathlib.Analysis.Calculus.Deriv.Pow
import Mathlib.Analysis.Calculus.Deriv.Add

set_option autoImplicit false

/-! # Expansion of Runge-Kutta steps and exact solutions over trees -/

open Filter Topology Asymptotics

namespace Verif

variable {κ : Type}

namespace Tree

/-- The children of the root, in order. -/
def children : Tree κ → List (Tree κ)
  | leaf _ => []
  | graft t s => t.children ++ [s]

/-- Tree with given root colour and children. -/
def build (c : κ) (l : List (Tree κ)) : Tree κ := l.foldl graft (leaf c)

theorem build_append (c : κ) (l : List (Tree κ)) (s : Tree κ) :
    build c (l ++ [s]) = graft (build c l) s := by simp [build]

theorem children_build (c : κ) (l : List (Tree κ)) : (build c l).children = l := by
  induction l using List.reverseRecOn with
  | nil => rfl
  | append_singleton l s ih => rw [build_append, children, ih]

theorem color_build (c : κ) (l : List (Tree κ)) : (build c l).color = c := by
  induction l using List.reverseRecOn with
  | nil => rfl
  | append_singleton l s ih => rw [build_append, color, ih]

theorem build_children (t : Tree κ) : build t.color t.children = t := by
  induction t with
  | leaf c => rfl
  | graft t s h1 _ => rw [color, children, build_append, h1]

theorem size_children (t : Tree κ) : t.size = (t.children.map size).sum + 1 := by
  induction t with
  | leaf c => rfl
  | graft t s h1 _ => simp only [size, children, List.map_append, List.sum_append, h1]; simp; omega

theorem belowDensity_children (t : Tree κ) : t.belowDensity = (t.children.map density).prod := by
  induction t with
  | leaf c => rfl
  | graft t s h1 _ => simp [belowDensity, children, h1, density]

theorem belowDensity_pos : ∀ t : Tree κ, 0 < t.belowDensity
  | leaf _ => Nat.one_pos
  | graft t s => Nat.mul_pos t.belowDensity_pos (Nat.mul_pos s.size_pos s.belowDensity_pos)

end Tree

section trees
variable [Fintype κ]

theorem finite_trees (N : ℕ) : {t : Tree κ | t.size ≤ N}.Finite := by
  classical
  refine Set.Finite.subset (s := ⋃ n ∈ Finset.range (N + 1),
    ((treesF (Finset.univ : Finset κ).toList N n).toFinset : Set (Tree κ))) ?_ ?_
  · exact Set.Finite.biUnion (Finset.finite_toSet _) fun _ _ => Finset.finite_toSet _
  · intro t ht
    simp only [Set.mem_iUnion]
    refine ⟨t.size, Finset.mem_range.2 (Nat.lt_succ_of_le ht), ?_⟩
    rw [Finset.mem_coe, List.mem_toFinset]
    exact mem_treesF (fun c => by simp) N t ht

/-- The trees with at most `N` nodes. -/
noncomputable def treesLE (κ : Type) [Fintype κ] (N : ℕ) : Finset (Tree κ) := (finite_trees (κ := κ) N).toFinset

theorem mem_treesLE {N : ℕ} {t : Tree κ} : t ∈ treesLE κ N ↔ t.size ≤ N := by simp [treesLE]

end trees

variable {V : Type*} [NormedAddCommGroup V] [NormedSpace ℝ V]

/-- Elementary differentials: `p c` is the expansion of part `c` at the starting point. The second
argument holds further children of the root. -/
def elemDiff (p : κ → FormalMultilinearSeries ℝ V V) : Tree κ → List V → V
  | .leaf c, l => p c l.length fun i => l.get i
  | .graft t s, l => elemDiff p t (elemDiff p s [] :: l)

theorem elemDiff_eq (p : κ → FormalMultilinearSeries ℝ V V) (t : Tree κ) (l : List V) :
    elemDiff p t l = elemDiff p (.leaf t.color) (t.children.map (fun s => elemDiff p s []) ++ l) := by
  induction t generalizing l with
  | leaf c => rfl
  | graft t s h1 _ =>
    have e : elemDiff p (.graft t s) l = elemDiff p t (elemDiff p s [] :: l) := rfl
    rw [e, h1, Tree.children, Tree.color, List.map_append, List.append_assoc]
    rfl

theorem elemDiff_leaf_ofFn (p : κ → FormalMultilinearSeries ℝ V V) (c : κ) {m : ℕ} (r : Fin m → V) :
    elemDiff p (.leaf c) (List.ofFn r) = p c m r := by
  rw [elemDiff]
  have := (List.equivSigmaTuple (α := V)).apply_symm_apply ⟨m, r⟩
  simp only [List.equivSigmaTuple, Equiv.coe_fn_mk, Equiv.coe_fn_symm_mk] at this
  have key : ∀ x y : Σ n, Fin n → V, x = y → p c x.1 x.2 = p c y.1 y.2 := by rintro _ _ rfl; rfl
  exact key _ _ this

theorem elemDiff_build (p : κ → FormalMultilinearSeries ℝ V V) (c : κ) {m : ℕ} (r : Fin m → Tree κ) :
    elemDiff p (.build c (List.ofFn r)) [] = p c m fun i => elemDiff p (r i) [] := by
  rw [elemDiff_eq, Tree.color_build, Tree.children_build, List.append_nil, List.map_ofFn, elemDiff_leaf_ofFn]
  rfl

variable [Fintype κ]

/-- The truncated series with coefficients `α`. -/
noncomputable def bSum (p : κ → FormalMultilinearSeries ℝ V V) (α : Tree κ → ℝ) (N : ℕ) (h : ℝ) : V :=
  ∑ t ∈ treesLE κ N, (h ^ t.size * α t) • elemDiff p t []

/-- `u` agrees with the series up to order `N`. -/
def Expands (p : κ → FormalMultilinearSeries ℝ V V) (y : V) (N : ℕ) (u : ℝ → V) (α : Tree κ → ℝ) : Prop :=
  (fun h => u h - y - bSum p α N h) =O[𝓝 0] fun h : ℝ => h ^ (N + 1)

theorem pow_isBigO {m n : ℕ} (h : n ≤ m) : (fun x : ℝ => x ^ m) =O[𝓝 0] fun x : ℝ => x ^ n := by
  obtain ⟨k, rfl⟩ := Nat.exists_eq_add_of_le h
  have : (fun x : ℝ => x ^ k) =O[𝓝 0] fun _ : ℝ => (1 : ℝ) :=
    (continuous_id.pow k).continuousAt.isBigO_one ℝ
  simpa [pow_add] using (isBigO_refl (fun x : ℝ => x ^ n) (𝓝 0)).mul this

theorem isBigO_sum {ι : Type*} {s : Finset ι} {g : ι → ℝ → V} {k : ℝ → ℝ} (h : ∀ i ∈ s, g i =O[𝓝 0] k) :
    (fun x => ∑ i ∈ s, g i x) =O[𝓝 0] k := by
  have := IsBigO.sum h
  simpa only [Finset.sum_fn] using this

theorem term_isBigO {m n : ℕ} (h : n ≤ m) (a : ℝ) (v : V) :
    (fun x : ℝ => (x ^ m * a) • v) =O[𝓝 0] fun x : ℝ => x ^ n := by
  refine IsBigO.trans ?_ (pow_isBigO h)
  refine IsBigO.of_bound (|a| * ‖v‖) (Eventually.of_forall fun x => ?_)
  rw [norm_smul, norm_mul, Real.norm_eq_abs a]
  exact le_of_eq (by ring)

theorem bSum_isBigO (p : κ → FormalMultilinearSeries ℝ V V) (α : Tree κ → ℝ) (N : ℕ) :
    bSum p α N =O[𝓝 0] fun h : ℝ => h ^ 1 :=
  isBigO_sum fun t _ => term_isBigO t.size_pos _ _

theorem tendsto_of_isBigO {u : ℝ → V} (h : u =O[𝓝 0] fun h : ℝ => h ^ 1) : Tendsto u (𝓝 0) (𝓝 0) := by
  refine h.trans_tendsto ?_
  have : Continuous fun x : ℝ => x ^ 1 := by fun_prop
  simpa using this.tendsto 0

/-- Replacing the argument of a multilinear map by its truncation. -/
theorem multilinear_trunc {m N : ℕ} (q : ContinuousMultilinearMap ℝ (fun _ : Fin m => V) V) {u v : ℝ → V}
    (hu : u =O[𝓝 0] fun h : ℝ => h ^ 1) (hv : v =O[𝓝 0] fun h : ℝ => h ^ 1)
    (huv : (fun h => u h - v h) =O[𝓝 0] fun h : ℝ => h ^ (N + 1)) :
    (fun h => q (fun _ => u h) - q (fun _ => v h)) =O[𝓝 0] fun h : ℝ => h ^ (N + 1) := by
  refine IsBigO.trans ?_ huv
  have h1 : ∀ᶠ h in 𝓝 (0 : ℝ), ‖u h‖ ≤ 1 := by
    have := (tendsto_of_isBigO hu).norm
    rw [norm_zero] at this
    exact this.eventually_le_const one_pos
  have h2 : ∀ᶠ h in 𝓝 (0 : ℝ), ‖v h‖ ≤ 1 := by
    have := (tendsto_of_isBigO hv).norm
    rw [norm_zero] at this
    exact this.eventually_le_const one_pos
  refine IsBigO.of_bound (‖q‖ * m) ?_
  filter_upwards [h1, h2] with h h1 h2
  have := q.norm_image_sub_le (fun _ => u h) (fun _ => v h)
  refine this.trans ?_
  have e1 : ‖fun _ : Fin m => u h‖ ≤ 1 := (pi_norm_const_le _).trans h1
  have e2 : ‖fun _ : Fin m => v h‖ ≤ 1 := (pi_norm_const_le _).trans h2
  have e3 : ‖(fun _ : Fin m => u h) - fun _ => v h‖ ≤ ‖u h - v h‖ := pi_norm_const_le (u h - v h)
  rw [Fintype.card_fin]
  have e4 : max ‖fun _ : Fin m => u h‖ ‖fun _ : Fin m => v h‖ ^ (m - 1) ≤ 1 :=
    pow_le_one₀ (le_max_of_le_left (norm_nonneg _)) (max_le e1 e2)
  calc ‖q‖ * m * max ‖fun _ : Fin m => u h‖ ‖fun _ : Fin m => v h‖ ^ (m - 1) * ‖(fun _ : Fin m => u h) - fun _ => v h‖
      ≤ ‖q‖ * m * 1 * ‖u h - v h‖ := by gcongr
    _ = ‖q‖ * m * ‖u h - v h‖ := by ring

/-- Inserting a series into a part. -/
theorem Expands.comp {f : κ → V → V} {p : κ → FormalMultilinearSeries ℝ V V} {y : V}
    (hf : ∀ c, HasFPowerSeriesAt (f c) (p c) y) {N : ℕ} {u : ℝ → V} {α : Tree κ → ℝ}
    (hu : Expands p y N u α) (c : κ) [DecidableEq κ] :
    (fun h => f c (u h) - ∑ t ∈ treesLE κ (N + 1) with t.color = c,
      (h ^ (t.size - 1) * (t.children.map α).prod) • elemDiff p t [])
      =O[𝓝 0] fun h : ℝ => h ^ (N + 1) := by
  classical
  -- the two truncations
  have hP := bSum_isBigO p α N
  have hv : (fun h => u h - y) =O[𝓝 0] fun h : ℝ => h ^ 1 := by
    have := (hu.trans (pow_isBigO (by omega : 1 ≤ N + 1))).add hP
    simpa using this
  have hv0 := tendsto_of_isBigO hv
  have h1 : (fun h => f c (u h) - (p c).partialSum (N + 1) (u h - y)) =O[𝓝 0] fun h : ℝ => h ^ (N + 1) := by
    have := ((hf c).isBigO_sub_partialSum_pow (N + 1)).comp_tendsto hv0
    simp only [Function.comp_def, add_sub_cancel] at this
    refine this.trans ?_
    have := (hv.norm_left.pow (N + 1))
    simpa using this
  have h2 : (fun h => (p c).partialSum (N + 1) (u h - y) - (p c).partialSum (N + 1) (bSum p α N h))
      =O[𝓝 0] fun h : ℝ => h ^ (N + 1) := by
    simp only [FormalMultilinearSeries.partialSum, ← Finset.sum_sub_distrib]
    exact isBigO_sum fun m _ => multilinear_trunc (p c m) hv hP hu
  -- the partial sum as a sum over trees
  let S : Finset (Σ m, Fin m → Tree κ) :=
    (Finset.range (N + 1)).sigma fun m => Fintype.piFinset fun _ : Fin m => treesLE κ N
  let g : ℝ → Tree κ → V := fun h t => (h ^ (t.size - 1) * (t.children.map α).prod) • elemDiff p t []
  have hinj : Set.InjOn (fun x : Σ m, Fin m → Tree κ => Tree.build c (List.ofFn x.2)) S := by
    intro x _ x' _ e
    have := congrArg Tree.children e
    simp only [Tree.children_build] at this
    exact (List.equivSigmaTuple (α := Tree κ)).symm.injective this
  have h3 : ∀ h, (p c).partialSum (N + 1) (bSum p α N h)
      = ∑ t ∈ S.image fun x => Tree.build c (List.ofFn x.2), g h t := by
    intro h
    rw [Finset.sum_image hinj, Finset.sum_sigma]
    simp only [FormalMultilinearSeries.partialSum, bSum]
    refine Finset.sum_congr rfl fun m _ => ?_
    rw [ContinuousMultilinearMap.map_sum_finset]
    refine Finset.sum_congr rfl fun r _ => ?_
    simp only [g]
    rw [elemDiff_build, Tree.children_build, ContinuousMultilinearMap.map_smul_univ]
    congr 1
    rw [Finset.prod_mul_distrib, List.map_ofFn, List.prod_ofFn, Finset.prod_pow_eq_pow_sum,
      Tree.size_children, Tree.children_build, List.map_ofFn, List.sum_ofFn, Nat.add_sub_cancel]
    rfl
  have hsub : (treesLE κ (N + 1)).filter (fun t => t.color = c) ⊆
      S.image fun x => Tree.build c (List.ofFn x.2) := by
    intro t ht
    rw [Finset.mem_filter, mem_treesLE] at ht
    obtain ⟨hs, rfl⟩ := ht
    have hsz := t.size_children
    have hlen : t.children.length ≤ (t.children.map Tree.size).sum := by
      have := List.length_le_sum_of_one_le (t.children.map Tree.size) (by
        intro i hi
        obtain ⟨s, _, rfl⟩ := List.mem_map.1 hi
        exact s.size_pos)
      simpa using this
    refine Finset.mem_image.2 ⟨⟨t.children.length, t.children.get⟩, ?_, ?_⟩
    · refine Finset.mem_sigma.2 ⟨Finset.mem_range.2 (by dsimp only; omega), ?_⟩
      refine Fintype.mem_piFinset.2 fun i => mem_treesLE.2 ?_
      have := List.single_le_sum (l := t.children.map Tree.size) (fun _ _ => Nat.zero_le _) (t.children.get i).size
        (List.mem_map.2 ⟨_, List.get_mem _ _, rfl⟩)
      dsimp only
      omega
    · simp only
      rw [List.ofFn_get, Tree.build_children]
  have h4 : (fun h => (p c).partialSum (N + 1) (bSum p α N h)
      - ∑ t ∈ treesLE κ (N + 1) with t.color = c, g h t) =O[𝓝 0] fun h : ℝ => h ^ (N + 1) := by
    simp only [h3]
    have : ∀ h, ∑ t ∈ S.image (fun x => Tree.build c (List.ofFn x.2)), g h t
        - ∑ t ∈ treesLE κ (N + 1) with t.color = c, g h t
        = ∑ t ∈ S.image (fun x => Tree.build c (List.ofFn x.2)) \ (treesLE κ (N + 1)).filter (fun t => t.color = c),
          g h t := by
      intro h
      rw [sub_eq_iff_eq_add, Finset.sum_sdiff hsub]
    simp only [this]
    refine isBigO_sum fun t ht => ?_
    rw [Finset.mem_sdiff, Finset.mem_filter, mem_treesLE] at ht
    obtain ⟨ht, hn⟩ := ht
    obtain ⟨x, _, rfl⟩ := Finset.mem_image.1 ht
    refine term_isBigO ?_ _ _
    rw [Tree.color_build] at hn
    have : ¬ (Tree.build c (List.ofFn x.2)).size ≤ N + 1 := fun h => hn ⟨h, rfl⟩
    omega
  have := (h1.add h2).add h4
  refine this.congr_left fun h => ?_
  simp only [g]
  abel

/-- The sum over colours of sums over trees of that colour. -/
theorem sum_color {M : Type*} [AddCommMonoid M] [DecidableEq κ] (S : Finset (Tree κ)) (g : κ → Tree κ → M) :
    ∑ c, ∑ t ∈ S with t.color = c, g c t = ∑ t ∈ S, g t.color t := by
  simp only [Finset.sum_filter]
  rw [Finset.sum_comm]
  refine Finset.sum_congr rfl fun t _ => ?_
  rw [Finset.sum_ite_eq]
  simp

/-- One more order by multiplication with the step. -/
theorem Expands.step {f : κ → V → V} {p : κ → FormalMultilinearSeries ℝ V V} {y : V}
    (hf : ∀ c, HasFPowerSeriesAt (f c) (p c) y) {s N : ℕ} {Y : Fin s → ℝ → V} {α : Fin s → Tree κ → ℝ}
    (hY : ∀ i, Expands p y N (Y i) (α i)) (w : κ → Fin s → ℝ) :
    Expands p y (N + 1) (fun h => y + h • ∑ c, ∑ i, w c i • f c (Y i h))
      (fun t => ∑ i, w t.color i * (t.children.map (α i)).prod) := by
  classical
  have key : ∀ c i, (fun h : ℝ => h • (w c i • (f c (Y i h) - ∑ t ∈ treesLE κ (N + 1) with t.color = c,
      (h ^ (t.size - 1) * (t.children.map (α i)).prod) • elemDiff p t []))) =O[𝓝 0] fun h : ℝ => h ^ (N + 1 + 1) := by
    intro c i
    have h1 := (((hY i).comp hf c).const_smul_left (w c i))
    have h2 := (isBigO_refl (fun h : ℝ => h) (𝓝 0)).smul h1
    simpa [pow_succ', mul_comm, smul_eq_mul] using h2
  have := isBigO_sum (s := Finset.univ) fun c (_ : c ∈ Finset.univ) =>
    isBigO_sum (s := Finset.univ) fun i (_ : i ∈ Finset.univ) => key c i
  refine this.congr_left fun h => ?_
  simp only [add_sub_cancel_left, bSum]
  simp only [smul_sub, Finset.sum_sub_distrib, ← Finset.smul_sum]
  congr 1
  rw [Finset.smul_sum]
  have e : ∀ c, h • ∑ i, w c i • ∑ t ∈ treesLE κ (N + 1) with t.color = c,
      (h ^ (t.size - 1) * (t.children.map (α i)).prod) • elemDiff p t []
      = ∑ t ∈ treesLE κ (N + 1) with t.color = c,
        (h ^ t.size * ∑ i, w c i * (t.children.map (α i)).prod) • elemDiff p t [] := by
    intro c
    simp only [Finset.smul_sum]
    rw [Finset.sum_comm]
    refine Finset.sum_congr rfl fun t _ => ?_
    rw [Finset.mul_sum, Finset.sum_smul]
    refine Finset.sum_congr rfl fun i _ => ?_
    simp only [smul_smul]
    congr 1
    obtain ⟨k, hk⟩ := Nat.exists_eq_add_of_lt t.size_pos
    rw [hk, show 0 + k + 1 - 1 = k by omega, show 0 + k + 1 = k + 1 by omega, pow_succ']
    ring
  rw [Finset.sum_congr rfl fun c _ => e c, sum_color (treesLE κ (N + 1)) fun c t =>
    (h ^ t.size * ∑ i, w c i * (t.children.map (α i)).prod) • elemDiff p t []]

/-- Stage coefficients. -/
noncomputable def stageCoeff {s : ℕ} (T : Tableau ℝ κ s) (i : Fin s) (t : Tree κ) : ℝ := ∑ j, T.A t.color i j * T.weight t j

omit [Fintype κ] in
theorem weight_children {s : ℕ} (T : Tableau ℝ κ s) (t : Tree κ) (i : Fin s) :
    T.weight t i = (t.children.map (stageCoeff T i)).prod := by
  induction t with
  | leaf c => rfl
  | graft t u h1 _ => simp [Tableau.weight, Tree.children, h1, stageCoeff]

theorem bSum_zero (p : κ → FormalMultilinearSeries ℝ V V) (α : Tree κ → ℝ) (h : ℝ) : bSum p α 0 h = 0 := by
  rw [bSum, Finset.sum_eq_zero]
  intro t ht
  rw [mem_treesLE] at ht
  exact absurd t.size_pos (by omega)

/-- Stages of an explicit method. -/
theorem stages_expand {f : κ → V → V} {p : κ → FormalMultilinearSeries ℝ V V} {y : V}
    (hf : ∀ c, HasFPowerSeriesAt (f c) (p c) y) {s : ℕ} {T : Tableau ℝ κ s}
    (hT : ∀ c i j, i ≤ j → T.A c i j = 0) {Y : Fin s → ℝ → V}
    (hY : ∀ i h, Y i h = y + h • ∑ c, ∑ j, T.A c i j • f c (Y j h)) (N : ℕ) (i : Fin s) :
    Expands p y N (Y i) (stageCoeff T i) := by
  induction N generalizing i with
  | zero =>
    have tend : ∀ n (i : Fin s), i.1 = n → Tendsto (Y i) (𝓝 0) (𝓝 y) ∧
        (fun h => Y i h - y) =O[𝓝 0] fun h : ℝ => h ^ 1 := by
      intro n
      induction n using Nat.strong_induction_on with
      | _ n ih =>
        intro i hi
        have hb : (fun h => ∑ c, ∑ j, T.A c i j • f c (Y j h)) =O[𝓝 0] fun _ : ℝ => (1 : ℝ) := by
          refine isBigO_sum fun c _ => isBigO_sum fun j _ => ?_
          by_cases hj : j < i
          · refine IsBigO.const_smul_left ?_ _
            have := ((hf c).continuousAt.tendsto.comp (ih j.1 (by rw [← hi]; exact hj) j rfl).1)
            exact this.isBigO_one ℝ
          · rw [show (fun h => T.A c i j • f c (Y j h)) = fun _ => 0 by
              funext h; rw [hT c i j (not_lt.1 hj), zero_smul]]
            exact isBigO_zero _ _
        have h1 : (fun h => Y i h - y) =O[𝓝 0] fun h : ℝ => h ^ 1 := by
          have := (isBigO_refl (fun h : ℝ => h) (𝓝 0)).smul hb
          refine (this.congr_left fun h => ?_).congr_right fun h => ?_
          · rw [hY i h, add_sub_cancel_left]
          · simp
        refine ⟨?_, h1⟩
        have := (tendsto_of_isBigO h1).add_const y
        simpa using this
    have := (tend i.1 i rfl).2
    simpa [Expands, bSum_zero] using this
  | succ N ih =>
    have := Expands.step hf ih (fun c => T.A c i)
    have e : (fun h => y + h • ∑ c, ∑ j, T.A c i j • f c (Y j h)) = Y i := funext fun h => (hY i h).symm
    rw [e] at this
    simp only [← weight_children] at this
    exact this

/-- The result of a step of an explicit method. -/
theorem step_expands {f : κ → V → V} {p : κ → FormalMultilinearSeries ℝ V V} {y : V}
    (hf : ∀ c, HasFPowerSeriesAt (f c) (p c) y) {s : ℕ} {T : Tableau ℝ κ s}
    (hT : ∀ c i j, i ≤ j → T.A c i j = 0) {y' : ℝ → V} (hy : ∀ h, T.IsStep f h y (y' h)) (N : ℕ) :
    Expands p y N y' (fun t => ∑ i, T.b t.color i * T.weight t i) := by
  choose Y hY hb using hy
  have hst := fun N i => stages_expand hf hT (Y := fun i h => Y h i) (fun i h => hY h i) N i
  have e : y' = fun h => y + h • ∑ c, ∑ i, T.b c i • f c (Y h i) := funext hb
  rw [e]
  cases N with
  | zero =>
    have := (Expands.step hf (hst 0) T.b)
    simp only [Expands, bSum_zero, sub_zero] at this ⊢
    have h2 := (this.trans (pow_isBigO (by omega : 1 ≤ 0 + 1 + 1))).add (bSum_isBigO p
      (fun t => ∑ i, T.b t.color i * (t.children.map (stageCoeff T i)).prod) (0 + 1))
    simpa using h2
  | succ N =>
    have := Expands.step hf (hst N) T.b
    simpa only [← weight_children] using this

/-- A function whose derivative is small near zero. -/
theorem isBigO_of_deriv {g g' : ℝ → V} (hg : ∀ᶠ h in 𝓝 (0 : ℝ), HasDerivAt g (g' h) h) (h0 : g 0 = 0) {n : ℕ}
    (hg' : g' =O[𝓝 0] fun h : ℝ => h ^ n) : g =O[𝓝 0] fun h : ℝ => h ^ (n + 1) := by
  obtain ⟨C, hC⟩ := hg'.bound
  obtain ⟨ε, hε, hball⟩ := Metric.eventually_nhds_iff_ball.1 (hg.and hC)
  refine IsBigO.of_bound C ?_
  filter_upwards [Metric.ball_mem_nhds (0 : ℝ) hε] with h hh
  have hs : ∀ x ∈ Metric.closedBall (0 : ℝ) |h|, x ∈ Metric.ball (0 : ℝ) ε := by
    intro x hx
    rw [Metric.mem_closedBall, dist_zero_right, Real.norm_eq_abs] at hx
    rw [Metric.mem_ball, dist_zero_right, Real.norm_eq_abs] at hh ⊢
    exact hx.trans_lt hh
  have hC0 : ∀ x ∈ Metric.closedBall (0 : ℝ) |h|, ‖g' x‖ ≤ C * |h| ^ n ∨ C < 0 := by
    intro x hx
    by_cases hc : C < 0
    · exact Or.inr hc
    left
    refine (hball x (hs x hx)).2.trans ?_
    rw [norm_pow, Real.norm_eq_abs]
    rw [Metric.mem_closedBall, dist_zero_right, Real.norm_eq_abs] at hx
    have := not_lt.1 hc
    gcongr
  by_cases hc : C < 0
  · -- then the derivative bound forces `n`-th powers to vanish, which is impossible off zero
    by_cases hz : h = 0
    · subst hz
      simp [h0]
    · exfalso
      have h1 := (hball h (hs h (by simp))).2
      have h2 : 0 < ‖h ^ n‖ := norm_pos_iff.2 (pow_ne_zero n hz)
      have := norm_nonneg (g' h)
      nlinarith
  · have := (convex_closedBall (0 : ℝ) |h|).norm_image_sub_le_of_norm_hasDerivWithin_le
      (f := g) (f' := g') (C := C * |h| ^ n) (x := 0) (y := h)
      (fun x hx => (hball x (hs x hx)).1.hasDerivWithinAt) (fun x hx => (hC0 x hx).resolve_right hc)
      (by simp) (by simp)
    rw [h0, sub_zero, sub_zero] at this
    rw [norm_pow, Real.norm_eq_abs, pow_succ, ← mul_assoc]
    simpa using this

/-- The exact solution. -/
theorem solution_expands {f : κ → V → V} {p : κ → FormalMultilinearSeries ℝ V V} {y : V}
    (hf : ∀ c, HasFPowerSeriesAt (f c) (p c) y) {u : ℝ → V} (hu0 : u 0 = y)
    (hu : ∀ᶠ h in 𝓝 (0 : ℝ), HasDerivAt u (∑ c, f c (u h)) h) (N : ℕ) :
    Expands p y N u (fun t => 1 / (t.density : ℝ)) := by
  classical
  induction N with
  | zero =>
    have := hu.self_of_nhds.differentiableAt.isBigO_sub
    simpa [Expands, bSum_zero, hu0] using this
  | succ N ih =>
    have hder : ∀ h, HasDerivAt (bSum p (fun t => 1 / (t.density : ℝ)) (N + 1))
        (∑ t ∈ treesLE κ (N + 1), (h ^ (t.size - 1) * (t.children.map fun t => 1 / (t.density : ℝ)).prod) •
          elemDiff p t []) h := by
      intro h
      have : HasDerivAt (fun h => ∑ t ∈ treesLE κ (N + 1), (h ^ t.size * (1 / (t.density : ℝ))) • elemDiff p t [])
          (∑ t ∈ treesLE κ (N + 1), ((t.size * h ^ (t.size - 1)) * (1 / (t.density : ℝ))) • elemDiff p t []) h :=
        HasDerivAt.fun_sum fun t _ => ((hasDerivAt_pow t.size h).mul_const _).smul_const _
      refine this.congr_deriv (Finset.sum_congr rfl fun t _ => ?_)
      congr 1
      have e : (t.children.map fun t => 1 / (t.density : ℝ)).prod = 1 / (t.belowDensity : ℝ) := by
        rw [t.belowDensity_children]
        generalize t.children = l
        induction l with
        | nil => simp
        | cons a l ih =>
          rw [List.map_cons, List.prod_cons, ih, List.map_cons, List.prod_cons]
          push_cast
          rw [one_div_mul_one_div]
      rw [e, Tree.density]
      have h1 : (t.size : ℝ) ≠ 0 := by exact_mod_cast t.size_pos.ne'
      have h2 : (t.belowDensity : ℝ) ≠ 0 := by exact_mod_cast t.belowDensity_pos.ne'
      push_cast
      field_simp
    have key : (fun h => ∑ c, f c (u h) - ∑ t ∈ treesLE κ (N + 1),
        (h ^ (t.size - 1) * (t.children.map fun t => 1 / (t.density : ℝ)).prod) • elemDiff p t [])
        =O[𝓝 0] fun h : ℝ => h ^ (N + 1) := by
      have := isBigO_sum (s := Finset.univ) fun c (_ : c ∈ Finset.univ) => ih.comp hf c
      refine this.congr_left fun h => ?_
      rw [Finset.sum_sub_distrib, sum_color (treesLE κ (N + 1)) fun c t =>
        (h ^ (t.size - 1) * (t.children.map fun t => 1 / (t.density : ℝ)).prod) • elemDiff p t []]
    refine isBigO_of_deriv (n := N + 1) ?_ ?_ key
    · filter_upwards [hu] with h hh
      exact (hh.sub_const y).sub (hder h)
    · rw [hu0, sub_self, zero_sub, neg_eq_zero, bSum]
      refine Finset.sum_eq_zero fun t _ => ?_
      rw [zero_pow t.size_pos.ne', zero_mul, zero_smul]

/-- **Local error of an explicit method**: the difference between a step and the exact solution, up to
any order, is the sum over trees of the defects of the order conditions. -/
theorem local_error {f : κ → V → V} {p : κ → FormalMultilinearSeries ℝ V V} {y : V}
    (hf : ∀ c, HasFPowerSeriesAt (f c) (p c) y) {s : ℕ} {T : Tableau ℝ κ s}
    (hT : ∀ c i j, i ≤ j → T.A c i j = 0) {y' : ℝ → V} (hy : ∀ h, T.IsStep f h y (y' h))
    {u : ℝ → V} (hu0 : u 0 = y) (hu : ∀ᶠ h in 𝓝 (0 : ℝ), HasDerivAt u (∑ c, f c (u h)) h) (N : ℕ) :
    (fun h => y' h - u h - ∑ t ∈ treesLE κ N, (h ^ t.size * T.defect t) • elemDiff p t [])
      =O[𝓝 0] fun h : ℝ => h ^ (N + 1) := by
  have := (step_expands hf hT hy N).sub (solution_expands hf hu0 hu N)
  refine this.congr_left fun h => ?_
  have : ∑ t ∈ treesLE κ N, (h ^ t.size * T.defect t) • elemDiff p t []
      = bSum p (fun t => ∑ i, T.b t.color i * T.weight t i) N h - bSum p (fun t => 1 / (t.density : ℝ)) N h := by
    rw [bSum, bSum, ← Finset.sum_sub_distrib]
    refine Finset.sum_congr rfl fun t _ => ?_
    rw [← sub_smul, ← mul_sub]
    rfl
  rw [this]
  abel

theorem order_of_conditions {f : κ → V → V} {y : V}
    (hf : ∀ c, AnalyticAt ℝ (f c) y) {s : ℕ} {T : Tableau ℝ κ s}
    (hT : ∀ c i j, i ≤ j → T.A c i j = 0) {q : ℕ} (ho : T.HasOrder q)
    {y' : ℝ → V} (hy : ∀ h, T.IsStep f h y (y' h))
    {u : ℝ → V} (hu0 : u 0 = y) (hu : ∀ᶠ h in 𝓝 (0 : ℝ), HasDerivAt u (∑ c, f c (u h)) h) :
    (fun h => y' h - u h) =O[𝓝 0] fun h : ℝ => h ^ (q + 1) := by
  choose p hp using hf
  refine (local_error hp hT hy hu0 hu q).congr_left fun h => ?_
  rw [Finset.sum_eq_zero, sub_zero]
  intro t ht
  rw [ho t (mem_treesLE.1 ht), mul_zero, zero_smul]

end Verif

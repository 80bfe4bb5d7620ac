import Verif.Model.Orbit
import Verif.Spec.Array
import Mathlib.Tactic.Linarith
import Mathlib.Tactic.Ring

set_option autoImplicit false

/-! Lemmas about indexing of orbits. -/

namespace Verif.Orb
open Verif.Spec

theorem pos_iff (len : Nat) (k : Int) (p : Nat) : pos len k = some p ↔ IsPos len k p := by
  unfold pos IsPos
  split_ifs <;> simp only [Option.some.injEq, reduceCtorEq, false_iff] <;> omega

theorem pos_none (len : Nat) (k : Int) : pos len k = none ↔ ∀ p, ¬ IsPos len k p := by
  constructor
  · intro h p hp
    rw [← pos_iff, h] at hp
    cases hp
  · intro h
    cases hk : pos len k with
    | none => rfl
    | some p => exact absurd ((pos_iff _ _ _).1 hk) (h p)

theorem adjust_eq (len lo hi dflt : Int) (b : Option Int) (h : lo ≤ hi) (h0 : lo ≤ 0) :
    adjust len lo hi dflt b = bound len lo hi dflt b := by
  cases b with
  | none => rfl
  | some k =>
    simp only [adjust, bound, Option.elim_some]
    split_ifs <;> omega

theorem bound_le (len lo hi dflt : Int) (b : Option Int) (h : lo ≤ hi) (h1 : lo ≤ dflt) (h2 : dflt ≤ hi) :
    lo ≤ bound len lo hi dflt b ∧ bound len lo hi dflt b ≤ hi := by
  cases b with
  | none => exact ⟨h1, h2⟩
  | some k =>
    simp only [bound, Option.elim_some]
    omega

theorem ap_up (a b st : Int) (hst : 0 < st) (ha : 0 ≤ a) (rs : List Nat)
    (h : rs = (List.range (if a < b then (b - a - 1) / st + 1 else 0).toNat).map fun i : Nat => (a + i * st).toNat) :
    rs.Pairwise (· < ·) ∧ ∀ i : Nat, i ∈ rs ↔ a ≤ i ∧ (i : Int) < b ∧ st ∣ (i : Int) - a := by
  subst h
  constructor
  · rw [List.pairwise_map]
    refine List.Pairwise.imp ?_ List.pairwise_lt_range
    intro x y hxy
    have h1 : (x : Int) * st < y * st := mul_lt_mul_of_pos_right (by exact_mod_cast hxy) hst
    have h2 : 0 ≤ (x : Int) * st := by positivity
    omega
  · intro i
    simp only [List.mem_map, List.mem_range]
    constructor
    · rintro ⟨k, hk, rfl⟩
      have h2 : 0 ≤ (k : Int) * st := by positivity
      have h3 : ((a + k * st).toNat : Int) = a + k * st := Int.toNat_of_nonneg (by omega)
      rw [h3]
      refine ⟨by omega, ?_, by simp⟩
      split_ifs at hk with hab
      · have h4 : (k : Int) ≤ (b - a - 1) / st := by omega
        have h5 : (k : Int) * st ≤ b - a - 1 :=
          le_trans (mul_le_mul_of_nonneg_right h4 hst.le) (Int.ediv_mul_le _ hst.ne')
        omega
      · simp at hk
    · rintro ⟨h1, h2, c, hc⟩
      have hc0 : 0 ≤ c := by
        by_contra hneg
        have : st * c < 0 := mul_neg_of_pos_of_neg hst (not_le.1 hneg)
        omega
      refine ⟨c.toNat, ?_, ?_⟩
      · rw [if_pos (by omega)]
        have h6 : c ≤ (b - a - 1) / st := by
          rw [Int.le_ediv_iff_mul_le hst]
          have : c * st = st * c := mul_comm _ _
          omega
        omega
      · have h7 : (c.toNat : Int) = c := Int.toNat_of_nonneg hc0
        rw [h7, mul_comm, ← hc]
        omega

theorem ap_down (a b st : Int) (hst : st < 0) (hb : -1 ≤ b) (rs : List Nat)
    (h : rs = (List.range (if b < a then (a - b - 1) / (-st) + 1 else 0).toNat).map
      fun i : Nat => (a + i * st).toNat) :
    rs.Pairwise (· > ·) ∧ ∀ i : Nat, i ∈ rs ↔ (i : Int) ≤ a ∧ b < i ∧ st ∣ (i : Int) - a := by
  have key : ∀ k : Nat, k < (if b < a then (a - b - 1) / (-st) + 1 else 0).toNat → b < a + k * st := by
    intro k hk
    split_ifs at hk with hab
    · have h4 : (k : Int) ≤ (a - b - 1) / (-st) := by omega
      have h5 : (k : Int) * (-st) ≤ a - b - 1 :=
        le_trans (mul_le_mul_of_nonneg_right h4 (by omega)) (Int.ediv_mul_le _ (by omega))
      have : (k : Int) * (-st) = -(k * st) := by ring
      omega
    · simp at hk
  subst h
  constructor
  · rw [List.pairwise_map]
    refine List.Pairwise.imp_of_mem ?_ List.pairwise_lt_range
    intro x y hx hy hxy
    have k1 := key x (List.mem_range.1 hx)
    have k2 := key y (List.mem_range.1 hy)
    have h1 : (y : Int) * st < x * st := mul_lt_mul_of_neg_right (by exact_mod_cast hxy) hst
    omega
  · intro i
    simp only [List.mem_map, List.mem_range]
    constructor
    · rintro ⟨k, hk, rfl⟩
      have k1 := key k hk
      have h2 : (k : Int) * st ≤ 0 := mul_nonpos_of_nonneg_of_nonpos (by omega) hst.le
      have h3 : ((a + k * st).toNat : Int) = a + k * st := Int.toNat_of_nonneg (by omega)
      rw [h3]
      exact ⟨by omega, k1, by simp⟩
    · rintro ⟨h1, h2, c, hc⟩
      have hc0 : 0 ≤ c := by
        by_contra hneg
        have : 0 < st * c := mul_pos_of_neg_of_neg hst (not_le.1 hneg)
        omega
      have h7 : (c.toNat : Int) = c := Int.toNat_of_nonneg hc0
      refine ⟨c.toNat, ?_, ?_⟩
      · rw [if_pos (by omega)]
        have h6 : c ≤ (a - b - 1) / (-st) := by
          rw [Int.le_ediv_iff_mul_le (by omega)]
          have : c * (-st) = -(st * c) := by ring
          omega
        omega
      · rw [h7, mul_comm, ← hc]
        omega

theorem sliceRows_some {len : Nat} {a b c : Option Int} {rs : List Nat}
    (h : sliceRows len a b c = some rs) : IsSlice len a b c rs := by
  unfold sliceRows at h
  simp only at h
  unfold IsSlice
  simp only
  have e1 := adjust_eq len 0 len 0 a (by omega) (by omega)
  have e2 := adjust_eq len 0 len len b (by omega) (by omega)
  have e3 := adjust_eq len (-1) (len - 1) (len - 1) a (by omega) (by omega)
  have e4 := adjust_eq len (-1) (len - 1) (-1) b (by omega) (by omega)
  rw [e1, e2, e3, e4] at h
  have b1 := bound_le len 0 len 0 a (by omega) (by omega) (by omega)
  have b2 := bound_le len (-1) (len - 1) (-1) b (by omega) (by omega) (by omega)
  by_cases h0 : c.getD 1 = 0
  · rw [if_pos h0] at h
    cases h
  rw [if_neg h0] at h
  by_cases hp : 0 < c.getD 1
  · rw [if_pos hp] at h
    exact Or.inl ⟨hp, ap_up _ _ _ hp b1.1 rs (Option.some.inj h).symm⟩
  · rw [if_neg hp] at h
    exact Or.inr ⟨by omega, ap_down _ _ _ (by omega) b2.1 rs (Option.some.inj h).symm⟩

theorem sliceRows_none {len : Nat} {a b c : Option Int} :
    sliceRows len a b c = none ↔ c = some 0 := by
  unfold sliceRows
  simp only
  split_ifs with h0 hp
  · simp only [true_iff]
    cases c with
    | none => simp at h0
    | some x => simp at h0; rw [h0]
  · simp only [reduceCtorEq, false_iff]
    rintro rfl
    exact h0 rfl
  · simp only [reduceCtorEq, false_iff]
    rintro rfl
    exact h0 rfl

theorem isSlice_lt {len : Nat} {a b c : Option Int} {rs : List Nat} (h : IsSlice len a b c rs) {r : Nat}
    (hr : r ∈ rs) : r < len := by
  rcases h with ⟨_, _, h⟩ | ⟨_, _, h⟩
  · have := (h r).1 hr
    have b2 := bound_le len 0 len len b (by omega) (by omega) (by omega)
    omega
  · have := (h r).1 hr
    have b2 := bound_le len (-1) (len - 1) (len - 1) a (by omega) (by omega) (by omega)
    omega

/-! ### Row-major arithmetic -/

theorem place_lt : ∀ {sh J : List Nat} {m : Nat}, place sh J = some m → m < sh.prod
  | [], [], m, h => by simp [place] at h; simp [← h]
  | n :: sh, i :: J, m, h => by
    unfold place at h
    split_ifs at h with hi
    obtain ⟨q, hq, rfl⟩ := Option.map_eq_some_iff.1 h
    have := place_lt hq
    rw [List.prod_cons]
    calc i * sh.prod + q < i * sh.prod + sh.prod := by omega
      _ = (i + 1) * sh.prod := by ring
      _ ≤ n * sh.prod := Nat.mul_le_mul_right _ hi
  | [], _ :: _, _, h => by simp [place] at h
  | _ :: _, [], _, h => by simp [place] at h

theorem flatMap_get {sub : List Nat} {q : Nat} : ∀ {rs : List Nat} {j r m s : Nat}, rs[j]? = some r →
    sub[m]? = some s →
    (rs.flatMap fun r => sub.map (r * q + ·))[j * sub.length + m]? = some (r * q + s)
  | [], _, _, _, _, h, _ => by simp at h
  | x :: rs, 0, r, m, s, h, hs => by
    simp only [List.getElem?_cons_zero, Option.some.injEq] at h
    subst h
    have hm : m < (sub.map (x * q + ·)).length := by
      rw [List.length_map]
      exact (List.getElem?_eq_some_iff.1 hs).1
    rw [List.flatMap_cons, Nat.zero_mul, Nat.zero_add, List.getElem?_append_left hm, List.getElem?_map, hs]
    rfl
  | x :: rs, j + 1, r, m, s, h, hs => by
    simp only [List.getElem?_cons_succ] at h
    rw [List.flatMap_cons, List.getElem?_append_right (by simp [Nat.add_mul]; omega)]
    have : (j + 1) * sub.length + m - (sub.map (x * q + ·)).length = j * sub.length + m := by
      rw [List.length_map, Nat.add_mul]; omega
    rw [this]
    exact flatMap_get h hs

theorem flatMap_len {sub : List Nat} {q : Nat} (rs : List Nat) :
    (rs.flatMap fun r => sub.map (r * q + ·)).length = rs.length * sub.length := by
  induction rs with
  | nil => simp
  | cons x rs ih => rw [List.flatMap_cons, List.length_append, ih, List.length_map, List.length_cons]; ring

end Verif.Orb

import Verif.Lemmas.Pot.DiskExpansionDict

set_option autoImplicit false

noncomputable section
namespace Verif.DiskExp
open Real Filter Topology Set

/-! ### Parsing -/

theorem mapM_ok {α β : Type} {f : α → Except Err β} {l : List α} {r : List β} (h : l.mapM f = .ok r) :
    List.Forall₂ (fun x y => f x = .ok y) l r := by
  induction l generalizing r with
  | nil =>
    rw [List.mapM_nil] at h
    cases h
    exact .nil
  | cons x l ih =>
    rw [List.mapM_cons] at h
    cases hx : f x with
    | error e => rw [hx] at h; cases h
    | ok y =>
      rw [hx] at h
      cases hl : l.mapM f with
      | error e => simp only [hl] at h; cases h
      | ok ys =>
        simp only [hl] at h
        cases h
        exact .cons hx (ih hl)

/-- The pair built from a surface density and a vertical profile. -/
def mkPair (s : ℝ × (ℝ → ℝ) × (ℝ → ℝ) × (ℝ → ℝ)) (h : (ℝ → ℝ) × (ℝ → ℝ) × (ℝ → ℝ)) : Pair :=
  ⟨s.1, s.2.1, s.2.2.1, s.2.2.2, h.1, h.2.1, h.2.2⟩

theorem parsePairs_ok {Sig : List SigDict} {hz : List HzDict} {ps : List Pair} (h : parsePairs Sig hz = .ok ps) :
    Sig ≠ [] ∧ (hz.length = Sig.length ∨ hz.length = 1) ∧ ∃ ss hs, List.Forall₂ (fun d s => parseSigma d = .ok s) Sig ss
      ∧ List.Forall₂ (fun d s => parseHz d = .ok s) (storedHz Sig hz) hs ∧ ps = List.zipWith mkPair ss hs := by
  unfold parsePairs at h
  by_cases h1 : Sig = []
  · rw [if_pos h1] at h; cases h
  rw [if_neg h1] at h
  cases hs : Sig.mapM parseSigma with
  | error e => simp only [hs] at h; cases h
  | ok ss =>
    simp only [hs] at h
    by_cases h2 : hz.length ≠ Sig.length ∧ hz.length ≠ 1
    · simp only [if_pos h2] at h; cases h
    simp only [if_neg h2] at h
    cases hh : (storedHz Sig hz).mapM parseHz with
    | error e => simp only [hh] at h; cases h
    | ok hs' =>
      simp only [hh] at h
      cases h
      exact ⟨h1, by tauto, ss, hs', mapM_ok hs, mapM_ok hh, rfl⟩

theorem storedHz_length {Sig : List SigDict} {hz : List HzDict} (h1 : Sig ≠ []) (h : hz.length = Sig.length ∨ hz.length = 1) :
    (storedHz Sig hz).length = Sig.length := by
  have : 0 < Sig.length := List.length_pos_iff.2 h1
  unfold storedHz
  split_ifs with k
  · simp
  · omega

theorem storedHz_mem {Sig : List SigDict} {hz : List HzDict} {e : HzDict} (he : e ∈ storedHz Sig hz) : e ∈ hz := by
  unfold storedHz at he
  split_ifs at he with k
  · rw [List.mem_replicate] at he
    obtain ⟨x, rfl⟩ := List.length_eq_one_iff.1 k.1
    simp [he.2]
  · exact he

/-- A relation between the dictionaries and the pairs. -/
theorem pairs_rel {Sig : List SigDict} {hz : List HzDict} {ps : List Pair} (h : parsePairs Sig hz = .ok ps) :
    List.Forall₂ (fun (x : SigDict × HzDict) p => ∃ s h, parseSigma x.1 = .ok s ∧ parseHz x.2 = .ok h ∧ p = mkPair s h)
      (Sig.zip (storedHz Sig hz)) ps := by
  obtain ⟨-, -, ss, hs, f1, f2, rfl⟩ := parsePairs_ok h
  clear h
  revert f2
  generalize storedHz Sig hz = H
  intro f2
  induction f1 generalizing H hs with
  | nil => simp
  | cons a f1 ih =>
    cases f2 with
    | nil => simp
    | cons b f2 => exact .cons ⟨_, _, a, b, rfl⟩ (ih _ _ f2)

theorem forall2_mem {α β : Type} {P : α → β → Prop} {l : List α} {m : List β} (h : List.Forall₂ P l m) {y : β} (hy : y ∈ m) :
    ∃ x ∈ l, P x y := by
  induction h with
  | nil => simp at hy
  | cons a _ ih =>
    rcases List.mem_cons.1 hy with rfl | hy
    · exact ⟨_, by simp, a⟩
    · obtain ⟨x, hx, p⟩ := ih hy
      exact ⟨x, by simp [hx], p⟩

theorem pairs_ok {Sig : List SigDict} {hz : List HzDict} {ps : List Pair} (h : parsePairs Sig hz = .ok ps)
    (k1 : ∀ d ∈ Sig, d.Pos) (k2 : ∀ d ∈ hz, d.Pos) : (∀ p ∈ ps, p.Ok) ∧ ∀ p ∈ ps, p.Centre := by
  have r := pairs_rel h
  have : ∀ p ∈ ps, p.Ok ∧ p.Centre := by
    intro p hp
    obtain ⟨x, hx, s, hh, e1, e2, rfl⟩ := forall2_mem r hp
    have hx1 := (List.of_mem_zip hx).1
    have hx2 := storedHz_mem (List.of_mem_zip hx).2
    have a := parseSigma_ok (k1 _ hx1) e1
    have b := parseHz_ok (k2 _ hx2) e2
    exact ⟨⟨a.1, a.2.1, b.1, b.2.1⟩, ⟨b.2.2.1, a.2.2.1, a.2.2.2⟩⟩
  exact ⟨fun p hp => (this p hp).1, fun p hp => (this p hp).2⟩

/-! ### C -/

/-- A block of C arguments represents a pair. -/
structure Rep (extra : ℝ) (b : List ℝ) (p : Pair) : Prop where
  len : toInt (arg b 0) + 3 = b.length
  s : ∀ r, cSigma r (sigArgs b) = 4 * π * p.a * extra * p.s r
  ds : ∀ r, cdSigma r (sigArgs b) = 4 * π * p.a * extra * p.ds r
  d2s : ∀ r, cd2Sigma r (sigArgs b) = 4 * π * p.a * extra * p.d2s r
  h : ∀ z, chz z (hzArgs b) = p.h z
  H : ∀ z, cHz z (hzArgs b) = p.H z
  dH : ∀ z, cdHz z (hzArgs b) = p.dH z

theorem toInt_nat (n : ℕ) : toInt (n : ℝ) = n := Nat.floor_natCast n
@[simp] theorem toInt0 : toInt 0 = 0 := by simpa using toInt_nat 0
@[simp] theorem toInt1 : toInt 1 = 1 := by simpa using toInt_nat 1
@[simp] theorem toInt3 : toInt 3 = 3 := by simpa using toInt_nat 3
@[simp] theorem toInt4 : toInt 4 = 4 := by simpa using toInt_nat 4

theorem hz_exp {zd : ℝ} (hz : 0 < zd) (A : List ℝ) (z : ℝ) :
    chz z (0 :: zd :: A) = 1 / 2 / zd * exp (-|z| / zd)
    ∧ cHz z (0 :: zd :: A) = (exp (-|z| / zd) - 1 + |z| / zd) * zd / 2
    ∧ cdHz z (0 :: zd :: A) = 1 / 2 * SignType.sign z * (1 - exp (-|z| / zd)) := by
  refine ⟨?_, ?_, ?_⟩
  · simp only [chz, arg, List.getD_cons_zero, List.getD_cons_succ, toInt0]; ring
  · simp only [cHz, arg, List.getD_cons_zero, List.getD_cons_succ, toInt0]; ring
  · simp only [cdHz, arg, List.getD_cons_zero, List.getD_cons_succ, toInt0, copysign]
    have : 0 ≤ 1 - exp (-|z| / zd) := by
      rw [sub_nonneg, exp_le_one_iff]
      exact div_nonpos_of_nonpos_of_nonneg (by simp) hz.le
    rcases lt_trichotomy z 0 with h | rfl | h
    · rw [if_pos h, sign_neg h, abs_of_nonneg this]; norm_num; ring
    · simp
    · rw [if_neg h.not_gt, sign_pos h, abs_of_nonneg this]; norm_num

theorem hz_sech {zd : ℝ} (hz : 0 < zd) (A : List ℝ) (z : ℝ) :
    chz z (1 :: zd :: A) = exp (-log (exp (z / zd) + exp (-z / zd) + exp (log 2))) / zd
    ∧ cHz z (1 :: zd :: A) = zd * (log (exp (z / 2 / zd) + exp (-z / 2 / zd)) - log 2)
    ∧ cdHz z (1 :: zd :: A) = tanh (z / 2 / zd) / 2 := by
  refine ⟨?_, ?_, ?_⟩
  · rw [sech_h]
    simp only [chz, arg, List.getD_cons_zero, List.getD_cons_succ, toInt1]
    rw [show 0.5 * z / zd = z / 2 / zd by norm_num; ring]
    have := cosh_pos (z / 2 / zd)
    field_simp
    norm_num
  · simp only [cHz, arg, List.getD_cons_zero, List.getD_cons_succ, toInt1]
    congr 2
    have e : exp (z / 2 / zd) + exp (-z / 2 / zd) = (1 + exp (-|z| / zd)) * exp (|z| / 2 / zd) := by
      rw [add_mul, one_mul, ← exp_add, show -|z| / zd + |z| / 2 / zd = -|z| / 2 / zd by ring]
      rcases abs_cases z with ⟨h, -⟩ | ⟨h, -⟩
      · rw [h]
      · rw [h, neg_neg, add_comm]
    rw [e, log_mul (by positivity) (exp_pos _).ne', log_exp]
    ring
  · simp only [cdHz, arg, List.getD_cons_zero, List.getD_cons_succ, toInt1]
    rw [show 0.5 * z / zd = z / 2 / zd by norm_num; ring]
    ring

theorem hzArgs3 (a b c : ℝ) (X : List ℝ) : hzArgs ([3, a, b, c] ++ X) = X := by simp [hzArgs, arg]
theorem hzArgs4 (a b c d : ℝ) (X : List ℝ) : hzArgs ([4, a, b, c, d] ++ X) = X := by simp [hzArgs, arg]

theorem rep {extra : ℝ} {d : SigDict} {e : HzDict} {s : ℝ × (ℝ → ℝ) × (ℝ → ℝ) × (ℝ → ℝ)} {h : (ℝ → ℝ) × (ℝ → ℝ) × (ℝ → ℝ)}
    (k2 : e.Pos) (hs : parseSigma d = .ok s) (hh : parseHz e = .ok h) :
    Rep extra (pairArgs extra d e) (mkPair s h) := by
  have hz : 0 < e.h.getD 0.0375 := getD_pos k2 (by norm_num)
  unfold parseSigma at hs
  unfold parseHz at hh
  unfold pairArgs
  simp only [] at hs hh ⊢
  generalize e.h.getD 0.0375 = zd at *
  split_ifs at hs hh ⊢ with h1 h2 h3
  · cases hs; cases hh
    refine ⟨by simp [arg], fun r => ?_, fun r => ?_, fun r => ?_, fun z => ?_, fun z => ?_, fun z => ?_⟩
    rotate_left 3
    · (first | rw [hzArgs3] | rw [hzArgs4]); exact (hz_exp hz [] z).1
    · (first | rw [hzArgs3] | rw [hzArgs4]); exact (hz_exp hz [] z).2.1
    · (first | rw [hzArgs3] | rw [hzArgs4]); exact (hz_exp hz [] z).2.2
    · simp [cSigma, arg, sigArgs, mkPair]
    · simp [cdSigma, arg, sigArgs, mkPair]; ring
    · simp [cd2Sigma, arg, sigArgs, mkPair]; ring
  · cases hs; cases hh
    refine ⟨by simp [arg], fun r => ?_, fun r => ?_, fun r => ?_, fun z => ?_, fun z => ?_, fun z => ?_⟩
    rotate_left 3
    · (first | rw [hzArgs3] | rw [hzArgs4]); exact (hz_sech hz [] z).1
    · (first | rw [hzArgs3] | rw [hzArgs4]); exact (hz_sech hz [] z).2.1
    · (first | rw [hzArgs3] | rw [hzArgs4]); exact (hz_sech hz [] z).2.2
    · simp [cSigma, arg, sigArgs, mkPair]
    · simp [cdSigma, arg, sigArgs, mkPair]; ring
    · simp [cd2Sigma, arg, sigArgs, mkPair]; ring
  · cases hs; cases hh
    refine ⟨by simp [arg], fun r => ?_, fun r => ?_, fun r => ?_, fun z => ?_, fun z => ?_, fun z => ?_⟩
    rotate_left 3
    · (first | rw [hzArgs3] | rw [hzArgs4]); exact (hz_exp hz [] z).1
    · (first | rw [hzArgs3] | rw [hzArgs4]); exact (hz_exp hz [] z).2.1
    · (first | rw [hzArgs3] | rw [hzArgs4]); exact (hz_exp hz [] z).2.2
    · simp [cSigma, arg, sigArgs, mkPair]
    · simp [cdSigma, arg, sigArgs, mkPair]; ring
    · simp [cd2Sigma, arg, sigArgs, mkPair]; ring
  · cases hs; cases hh
    refine ⟨by simp [arg], fun r => ?_, fun r => ?_, fun r => ?_, fun z => ?_, fun z => ?_, fun z => ?_⟩
    rotate_left 3
    · (first | rw [hzArgs3] | rw [hzArgs4]); exact (hz_sech hz [] z).1
    · (first | rw [hzArgs3] | rw [hzArgs4]); exact (hz_sech hz [] z).2.1
    · (first | rw [hzArgs3] | rw [hzArgs4]); exact (hz_sech hz [] z).2.2
    · simp [cSigma, arg, sigArgs, mkPair]
    · simp [cdSigma, arg, sigArgs, mkPair]; ring
    · simp [cd2Sigma, arg, sigArgs, mkPair]; ring

theorem readC_flatten {bs : List (List ℝ)} (h : ∀ b ∈ bs, toInt (arg b 0) + 3 = b.length) : readC bs.length bs.flatten = bs := by
  induction bs with
  | nil => rfl
  | cons b bs ih =>
    have hb := h b (by simp)
    have e : arg (b ++ bs.flatten) 0 = arg b 0 := by
      cases b with
      | nil => simp at hb
      | cons x b => simp [arg]
    simp only [List.length_cons, List.flatten_cons, readC, e, hb, List.take_left', List.drop_left']
    rw [ih fun c hc => h c (by simp [hc])]

theorem blocks_rep {extra : ℝ} {Sig : List SigDict} {hz : List HzDict} {ps : List Pair} (h : parsePairs Sig hz = .ok ps)
    (k2 : ∀ d ∈ hz, d.Pos) :
    List.Forall₂ (Rep extra) (readC (parseC extra Sig hz).1 (parseC extra Sig hz).2) ps := by
  have r := pairs_rel h
  have f : List.Forall₂ (Rep extra) (List.zipWith (pairArgs extra) Sig (storedHz Sig hz)) ps := by
    have k : ∀ x ∈ Sig.zip (storedHz Sig hz), x.2.Pos := fun x hx => k2 _ (storedHz_mem (List.of_mem_zip hx).2)
    rw [← List.map_uncurry_zip_eq_zipWith]
    clear h
    revert r k
    generalize Sig.zip (storedHz Sig hz) = X
    intro r k
    induction r with
    | nil => exact .nil
    | cons a _ ih =>
      obtain ⟨s, hh, e1, e2, rfl⟩ := a
      exact .cons (rep (k _ (by simp)) e1 e2) (ih fun x hx => k x (by simp [hx]))
  unfold parseC
  simp only []
  rw [readC_flatten]
  · exact f
  · intro b hb
    obtain ⟨p, -, q⟩ := forall2_mem f.flip hb
    exact q.len

theorem cSum_eq {f : List ℝ → ℝ} {g : Pair → ℝ} {extra : ℝ} {bs : List (List ℝ)} {ps : List Pair}
    (r : List.Forall₂ (Rep extra) bs ps) (e : ∀ b p, Rep extra b p → f b = extra * g p) :
    cSum f bs = extra * (ps.map g).sum := by
  unfold cSum
  rw [foldl_add, zero_add]
  induction r with
  | nil => simp
  | cons a _ ih => simp only [List.map_cons, List.sum_cons, ih, e _ _ a]; ring

end Verif.DiskExp

import Verif.Model.Config
import Mathlib.Tactic.Common

set_option autoImplicit false

/-!
# Lemmas about the configuration
-/

namespace Verif.Config

theorem interpolateText_plain (value : Text → Option Text) (n : ℕ) (t : Text) (h : '%' ∉ t) (hn : t.length ≤ n) :
    interpolateText value n t = some t := by
  induction t generalizing n with
  | nil => unfold interpolateText; rfl
  | cons c t ih =>
    rcases n with _ | n
    · simp at hn
    · rw [List.mem_cons, not_or] at h
      unfold interpolateText
      rw [if_neg (fun hc => h.1 hc.symm), ih n h.2 (by simpa using hn)]
      rfl

theorem interpolate_plain (look : Text → Option Text) (d : ℕ) (t : Text) (h : '%' ∉ t) :
    interpolate look (d + 1) t = some t := by
  unfold interpolate
  exact interpolateText_plain _ _ _ h (Nat.le_refl _)

theorem removePercents_plain (t : Text) (h : '%' ∉ t) : removePercents t = t := by
  induction t with
  | nil => rfl
  | cons c t ih =>
    rw [List.mem_cons, not_or] at h
    unfold removePercents
    split
    · rename_i hc; simp at hc; exact absurd hc.1.symm h.1
    · rename_i hc; simp at hc; rw [← hc.1, ← hc.2, ih h.2]
    · rename_i hc; simp at hc

theorem removeReferences_plain (n : ℕ) (t : Text) (h : '%' ∉ t) : removeReferences n t = t := by
  induction n generalizing t with
  | zero => rfl
  | succ n ih =>
    unfold removeReferences
    have hr : reference t = none := by
      unfold reference
      split
      · simp at h
      · rfl
    rw [hr]
    rcases t with _ | ⟨c, r⟩
    · rfl
    · simp only
      rw [ih r fun hc => h (by simp [hc])]

theorem settable_plain (t : Text) (h : '%' ∉ t) : settable t = true := by
  unfold settable
  simp only
  rw [removePercents_plain t h, removeReferences_plain _ t h]
  simpa using h

theorem get_plain (c : Config) (s k : String) (v : Text) (hv : c.raw s k = some v) (h : '%' ∉ v) :
    c.get s k = .ok v := by
  unfold Config.get
  rw [hv]
  simp only
  rw [interpolate_plain _ _ _ h]

/-- The loop over the keys, for keys that get the values `w`. -/
theorem fixKeys_ok (conf : Option Config) (s : String) (w : String → Text) (keys : List (String × Text))
    (hw : ∀ q ∈ keys, fixValue conf s q.1 q.2 = .ok (w q.1) ∧ settable (w q.1) = true) (fixed : Config) (sec : Sec)
    (hs : fixed.sections s = some sec) :
    ∃ sec', fixKeys conf s fixed keys = .ok { fixed with sections := Function.update fixed.sections s (some sec') } ∧
      ∀ k, sec' k = if k ∈ keys.map Prod.fst then some (w k) else sec k := by
  induction keys generalizing fixed sec with
  | nil =>
    refine ⟨sec, ?_, fun k => by simp⟩
    rw [← hs, Function.update_eq_self]
    rfl
  | cons q keys ih =>
    obtain ⟨h1, h2⟩ := hw q (by simp)
    have hset : fixed.set s q.1 (w q.1) =
        .ok { fixed with sections := Function.update fixed.sections s (some (Function.update sec q.1 (some (w q.1)))) } := by
      unfold Config.set
      rw [if_pos h2, hs]
    obtain ⟨sec', h3, h4⟩ := ih (fun q hq => hw q (by simp [hq]))
      { fixed with sections := Function.update fixed.sections s (some (Function.update sec q.1 (some (w q.1)))) }
      (Function.update sec q.1 (some (w q.1))) (by simp)
    refine ⟨sec', ?_, ?_⟩
    · unfold fixKeys at h3 ⊢
      rw [List.foldlM_cons, h1]
      simp only [bind, Except.bind]
      rw [hset]
      simp only
      simp only [bind, Except.bind] at h3
      rw [h3]
      simp
    · intro k
      rw [h4]
      by_cases hk : k ∈ keys.map Prod.fst
      · rw [if_pos hk, if_pos (by simp only [List.map_cons, List.mem_cons]; exact .inr hk)]
      · rw [if_neg hk]
        by_cases hkq : k = q.1
        · subst hkq; simp
        · rw [if_neg (by simp only [List.map_cons, List.mem_cons, not_or]; exact ⟨hkq, hk⟩),
            Function.update_of_ne hkq]

/-- The loop over the sections, for keys that get the values `w`. -/
theorem fixAll_ok (conf : Option Config) (w : String → String → Text) (D : List (String × List (String × Text)))
    (hnd : (D.map Prod.fst).Nodup)
    (hw : ∀ p ∈ D, ∀ q ∈ p.2, fixValue conf p.1 q.1 q.2 = .ok (w p.1 q.1) ∧ settable (w p.1 q.1) = true)
    (fixed : Config) (hf : ∀ p ∈ D, fixed.sections p.1 = none) :
    ∃ c', D.foldlM (fun fixed p => do
        let fixed ← fixed.addSection p.1
        fixKeys conf p.1 fixed p.2) fixed = .ok c' ∧ c'.defaults = fixed.defaults ∧
      (∀ p ∈ D, ∃ sec, c'.sections p.1 = some sec ∧
        ∀ k, sec k = if k ∈ p.2.map Prod.fst then some (w p.1 k) else none) ∧
      ∀ s, s ∉ D.map Prod.fst → c'.sections s = fixed.sections s := by
  induction D generalizing fixed with
  | nil => exact ⟨fixed, rfl, rfl, by simp, fun _ _ => rfl⟩
  | cons p D ih =>
    have hp : p.1 ∉ D.map Prod.fst := (List.nodup_cons.1 hnd).1
    have hadd : fixed.addSection p.1 =
        .ok { fixed with sections := Function.update fixed.sections p.1 (some fun _ => none) } := by
      unfold Config.addSection Config.hasSection
      rw [hf p (by simp)]
      simp
    obtain ⟨sec', h1, h2⟩ := fixKeys_ok conf p.1 (w p.1) p.2 (hw p (by simp))
      { fixed with sections := Function.update fixed.sections p.1 (some fun _ => none) } (fun _ => none) (by simp)
    simp only [Function.update_idem] at h1
    obtain ⟨c', h3, h4, h5, h6⟩ := ih (List.nodup_cons.1 hnd).2 (fun p hp => hw p (by simp [hp]))
      { fixed with sections := Function.update fixed.sections p.1 (some sec') } (by
        intro p' hp'
        have hne : p'.1 ≠ p.1 := fun h => hp (h ▸ List.mem_map_of_mem hp')
        simp only [Function.update_of_ne hne]
        exact hf p' (by simp [hp']))
    refine ⟨c', ?_, h4, ?_, ?_⟩
    · rw [List.foldlM_cons, hadd]
      simp only [bind, Except.bind] at h3 ⊢
      rw [h1]
      exact h3
    · intro p' hp'
      rcases List.mem_cons.1 hp' with rfl | hp'
      · refine ⟨sec', ?_, h2⟩
        rw [h6 _ hp]; simp
      · exact h5 p' hp'
    · intro s hs
      rw [List.map_cons, List.mem_cons, not_or] at hs
      rw [h6 s hs.2]
      simp only [Function.update_of_ne hs.1]

/-- A successful repair has the required sections and keys. -/
theorem fixKeys_has (conf : Option Config) (s : String) (keys : List (String × Text)) (fixed c' : Config)
    (h : fixKeys conf s fixed keys = .ok c') :
    (∀ s', (fixed.sections s').isSome → (c'.sections s').isSome) ∧ (∀ s' k, (fixed.raw s' k).isSome → (c'.raw s' k).isSome) ∧
      ∀ q ∈ keys, (c'.raw s q.1).isSome := by
  induction keys generalizing fixed with
  | nil =>
    have : fixed = c' := by simpa [fixKeys, pure, Except.pure] using h
    subst this
    exact ⟨fun _ h => h, fun _ _ h => h, by simp⟩
  | cons q keys ih =>
    unfold fixKeys at h
    rw [List.foldlM_cons] at h
    simp only [bind, Except.bind] at h
    rcases hv : fixValue conf s q.1 q.2 with e | v
    · rw [hv] at h; cases h
    · rw [hv] at h
      simp only at h
      rcases hs : fixed.set s q.1 v with e | c1
      · rw [hs] at h; cases h
      · rw [hs] at h
        obtain ⟨h1, h2, h3⟩ := ih c1 h
        unfold Config.set at hs
        split_ifs at hs
        rcases hsec : fixed.sections s with _ | sec
        · rw [hsec] at hs; cases hs
        · rw [hsec] at hs
          have hs := (Except.ok.inj hs).symm
          subst hs
          have a1 : ∀ s', (fixed.sections s').isSome →
              (Function.update fixed.sections s (some (Function.update sec q.1 (some v))) s').isSome := by
            intro s' h'
            by_cases hss : s' = s
            · subst hss; simp
            · simpa [Function.update_of_ne hss] using h'
          have a2 : ∀ s' k, (fixed.raw s' k).isSome →
              (Config.raw ⟨Function.update fixed.sections s (some (Function.update sec q.1 (some v))), fixed.defaults⟩ s' k).isSome := by
            intro s' k h'
            unfold Config.raw at h' ⊢
            simp only
            by_cases hss : s' = s
            · subst hss
              rw [hsec] at h'
              simp only [Function.update_self, Option.bind_some] at h' ⊢
              by_cases hk : k = q.1
              · subst hk; simp
              · simpa [Function.update_of_ne hk] using h'
            · simpa [Function.update_of_ne hss] using h'
          refine ⟨fun s' h' => h1 s' (a1 s' h'), fun s' k h' => h2 s' k (a2 s' k h'), ?_⟩
          intro q' hq'
          rcases List.mem_cons.1 hq' with rfl | hq'
          · apply h2
            unfold Config.raw
            simp
          · exact h3 q' hq'

theorem fixAll_has (conf : Option Config) (D : List (String × List (String × Text))) (fixed c' : Config)
    (h : D.foldlM (fun fixed p => do
        let fixed ← fixed.addSection p.1
        fixKeys conf p.1 fixed p.2) fixed = .ok c') :
    (∀ s', (fixed.sections s').isSome → (c'.sections s').isSome) ∧ (∀ s' k, (fixed.raw s' k).isSome → (c'.raw s' k).isSome) ∧
      ∀ p ∈ D, (c'.sections p.1).isSome ∧ ∀ q ∈ p.2, (c'.raw p.1 q.1).isSome := by
  induction D generalizing fixed with
  | nil =>
    have : fixed = c' := by simpa [pure, Except.pure] using h
    subst this
    exact ⟨fun _ h => h, fun _ _ h => h, by simp⟩
  | cons p D ih =>
    rw [List.foldlM_cons] at h
    simp only [bind, Except.bind] at h
    rcases ha : fixed.addSection p.1 with e | c1
    · rw [ha] at h; cases h
    · rw [ha] at h
      simp only at h
      rcases hk : fixKeys conf p.1 c1 p.2 with e | c2
      · rw [hk] at h; cases h
      · rw [hk] at h
        obtain ⟨h1, h2, h3⟩ := ih c2 (by simpa only [bind, Except.bind] using h)
        obtain ⟨k1, k2, k3⟩ := fixKeys_has conf p.1 p.2 c1 c2 hk
        unfold Config.addSection at ha
        split_ifs at ha with hsec
        have ha := (Except.ok.inj ha).symm
        have hnone : fixed.sections p.1 = none := by
          unfold Config.hasSection at hsec; simpa using hsec
        have a1 : ∀ s', (fixed.sections s').isSome → (c1.sections s').isSome := by
          intro s' h'
          subst ha
          by_cases hss : s' = p.1
          · subst hss; simp
          · simpa [Function.update_of_ne hss] using h'
        have a2 : ∀ s' k, (fixed.raw s' k).isSome → (c1.raw s' k).isSome := by
          intro s' k h'
          subst ha
          unfold Config.raw at h' ⊢
          by_cases hss : s' = p.1
          · subst hss; rw [hnone] at h'; simp at h'
          · simpa [Function.update_of_ne hss] using h'
        have a3 : (c1.sections p.1).isSome := by subst ha; simp
        refine ⟨fun s' h' => h1 s' (k1 s' (a1 s' h')), fun s' k h' => h2 s' k (k2 s' k (a2 s' k h')), ?_⟩
        intro p' hp'
        rcases List.mem_cons.1 hp' with rfl | hp'
        · exact ⟨h1 _ (k1 _ a3), fun q hq => h2 _ _ (k3 q hq)⟩
        · exact h3 p' hp'

end Verif.Config

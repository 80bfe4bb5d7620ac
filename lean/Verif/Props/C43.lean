import Verif.Lemmas.Config

set_option autoImplicit false

/-!
# C43: repair of the configuration file

For every content of the two configuration files.
-/

namespace Verif

open Config

/-- The keys that galpy requires, with the documented default values. -/
def C43aux.required : List (String × String × String) :=
  [("normalization", "ro", "8."), ("normalization", "vo", "220."), ("astropy", "astropy-units", "False"),
    ("astropy", "astropy-coords", "True"), ("plot", "seaborn-bovy-defaults", "False"), ("warnings", "verbose", "False"),
    ("version-check", "do-check", "True"), ("version-check", "check-non-interactive", "True"),
    ("version-check", "check-non-interactive-every", "1"), ("version-check", "last-non-interactive-check", "2000-01-01")]

/-- The configuration has a value for every required key. -/
def C43aux.Complete (c : Config) : Prop := ∀ r ∈ C43aux.required, ∃ v, c.raw r.1 r.2.1 = some v

/-- None of the values that galpy reads has a percent sign. -/
def C43aux.Plain (c : Config) : Prop := ∀ r ∈ C43aux.required, ∀ v, c.raw r.1 r.2.1 = some v → '%' ∉ v

theorem C43aux.required_iff (P : String → String → Text → Prop) :
    (∀ p ∈ defaultConfiguration, ∀ q ∈ p.2, P p.1 q.1 q.2) ↔ ∀ r ∈ C43aux.required, P r.1 r.2.1 r.2.2.toList := by
  simp only [defaultConfiguration, C43aux.required, List.forall_mem_cons, List.not_mem_nil, false_implies,
    implies_true, and_true]
  tauto

theorem C43aux.check_iff (c : Config) : checkConfig c = true ↔ C43aux.Complete c := by
  have h1 : checkConfig c = true ↔
      ∀ p ∈ defaultConfiguration, c.hasSection p.1 = true ∧ ∀ q ∈ p.2, c.hasOption p.1 q.1 = true := by
    unfold checkConfig
    rw [List.all_eq_true]
    simp only [Bool.and_eq_true, List.all_eq_true]
  have h2 := C43aux.required_iff (fun s k _ => c.hasOption s k = true)
  have h3 : C43aux.Complete c ↔ ∀ r ∈ C43aux.required, c.hasOption r.1 r.2.1 = true := by
    unfold C43aux.Complete Config.hasOption
    simp only [Option.isSome_iff_exists]
  rw [h1, h3, ← h2]
  constructor
  · intro h p hp; exact (h p hp).2
  · intro h p hp
    refine ⟨?_, h p hp⟩
    have hne : ∃ q, q ∈ p.2 := by
      have : ∀ p ∈ defaultConfiguration, p.2 ≠ [] := by simp [defaultConfiguration]
      exact List.exists_mem_of_ne_nil _ (this p hp)
    obtain ⟨q, hq⟩ := hne
    have := h p hp q hq
    unfold Config.hasOption Config.raw at this
    unfold Config.hasSection
    rcases hs : c.sections p.1 with _ | sec
    · rw [hs] at this; simp at this
    · rfl

theorem C43aux.fix_complete (conf : Option Config) (c' : Config) (h : fixConfig conf = .ok c') : C43aux.Complete c' := by
  obtain ⟨-, -, h3⟩ := fixAll_has conf defaultConfiguration Config.empty c' h
  have := (C43aux.required_iff (fun s k _ => ∃ v, c'.raw s k = some v)).1
    (fun p hp q hq => Option.isSome_iff_exists.1 ((h3 p hp).2 q hq))
  exact this

/-- After loading, whatever the files contain, there is a value for every required key. -/
theorem C43_complete (writable : Bool) (d d' : Disk) (c : Config) (h : load writable d = .ok (c, d')) :
    C43aux.Complete c := by
  unfold load at h
  split at h
  · split_ifs at h with hc
    · cases h; exact (C43aux.check_iff _).1 hc
    · rename_i c0 _
      simp only [bind, Except.bind] at h
      rcases hf : fixConfig (some c0) with e | c'
      · rw [hf] at h; cases h
      · rw [hf] at h; cases h; exact C43aux.fix_complete _ _ hf
  · split at h
    · split_ifs at h with hc
      · cases h; exact (C43aux.check_iff _).1 hc
      · rename_i c0 _
        simp only [bind, Except.bind] at h
        rcases hf : fixConfig (some c0) with e | c'
        · rw [hf] at h; cases h
        · rw [hf] at h; cases h; exact C43aux.fix_complete _ _ hf
    · simp only [bind, Except.bind] at h
      rcases hf : fixConfig none with e | c1
      · rw [hf] at h; cases h
      · rw [hf] at h
        simp only at h
        rw [if_pos ((C43aux.check_iff _).2 (C43aux.fix_complete _ _ hf))] at h
        cases h; exact C43aux.fix_complete _ _ hf

/-- The value a repaired configuration should have for a key: the user's, or the default. -/
def C43aux.wanted (conf : Option Config) (s k : String) (dflt : Text) : Text :=
  ((conf.bind fun c => c.raw s k).getD dflt)

/-- A configuration in which exactly the required keys are set. -/
def C43aux.Exact (c' : Config) (w : String → String → Text) : Prop :=
  (∀ k, c'.defaults k = none) ∧
    (∀ p ∈ defaultConfiguration, ∃ sec, c'.sections p.1 = some sec ∧
      ∀ k, sec k = if k ∈ p.2.map Prod.fst then some (w p.1 k) else none) ∧
    ∀ s, s ∉ defaultConfiguration.map Prod.fst → c'.sections s = none

theorem C43aux.exact_unique (c c' : Config) (w : String → String → Text) (h : C43aux.Exact c w)
    (h' : C43aux.Exact c' w) : c = c' := by
  obtain ⟨s, d⟩ := c
  obtain ⟨s', d'⟩ := c'
  have hd : d = d' := by funext k; exact (h.1 k).trans (h'.1 k).symm
  have hs : s = s' := by
    funext n
    by_cases hn : n ∈ defaultConfiguration.map Prod.fst
    · obtain ⟨p, hp, rfl⟩ := List.mem_map.1 hn
      obtain ⟨sec, h1, h2⟩ := h.2.1 p hp
      obtain ⟨sec', h1', h2'⟩ := h'.2.1 p hp
      simp only at h1 h1'
      rw [h1, h1']
      congr 1
      funext k
      rw [h2, h2']
    · exact (h.2.2 n hn).trans (h'.2.2 n hn).symm
  rw [hd, hs]

/-- The default of a required key. -/
def C43aux.dflt (s k : String) : Text :=
  ((C43aux.required.find? fun r => r.1 = s ∧ r.2.1 = k).map fun r => r.2.2.toList).getD []

theorem C43aux.dflt_eq : ∀ r ∈ C43aux.required, C43aux.dflt r.1 r.2.1 = r.2.2.toList := by
  decide +kernel

theorem C43aux.fix_exact (conf : Option Config) (hp : ∀ c, conf = some c → C43aux.Plain c) :
    ∃ c', fixConfig conf = .ok c' ∧
      C43aux.Exact c' fun s k => C43aux.wanted conf s k (C43aux.dflt s k) := by
  have hdp : ∀ r ∈ C43aux.required, '%' ∉ r.2.2.toList := by decide +kernel
  have hw : ∀ p ∈ defaultConfiguration, ∀ q ∈ p.2,
      fixValue conf p.1 q.1 q.2 = .ok (C43aux.wanted conf p.1 q.1 (C43aux.dflt p.1 q.1)) ∧
        settable (C43aux.wanted conf p.1 q.1 (C43aux.dflt p.1 q.1)) = true := by
    have := (C43aux.required_iff (fun s k d => fixValue conf s k d = .ok (C43aux.wanted conf s k (C43aux.dflt s k)) ∧
      settable (C43aux.wanted conf s k (C43aux.dflt s k)) = true)).2
    apply this
    intro r hr
    rw [C43aux.dflt_eq r hr]
    rcases conf with _ | c
    · exact ⟨rfl, settable_plain _ (hdp r hr)⟩
    · unfold fixValue C43aux.wanted
      simp only [Option.bind_some]
      rcases hv : c.raw r.1 r.2.1 with _ | v
      · rw [if_pos (by simp [Config.hasOption, hv])]
        exact ⟨rfl, settable_plain _ (hdp r hr)⟩
      · have hsec : c.hasSection r.1 = true := by
          unfold Config.hasSection
          unfold Config.raw at hv
          rcases hs : c.sections r.1 with _ | sec
          · rw [hs] at hv; cases hv
          · rfl
        have hpl := hp c rfl r hr v hv
        rw [if_neg (by simp [Config.hasOption, hv, hsec]), get_plain c _ _ v hv hpl]
        exact ⟨rfl, settable_plain _ hpl⟩
  obtain ⟨c', h1, h2, h3, h4⟩ := fixAll_ok conf (fun s k => C43aux.wanted conf s k (C43aux.dflt s k))
    defaultConfiguration (by decide +kernel) hw Config.empty (fun _ _ => rfl)
  exact ⟨c', h1, fun k => by rw [h2]; rfl, h3, fun s hs => by rw [h4 s hs]; rfl⟩

theorem C43aux.exact_raw (c' : Config) (w : String → String → Text) (h : C43aux.Exact c' w) :
    ∀ r ∈ C43aux.required, c'.raw r.1 r.2.1 = some (w r.1 r.2.1) := by
  have := (C43aux.required_iff (fun s k _ => c'.raw s k = some (w s k))).1
  apply this
  intro p hp q hq
  obtain ⟨sec, h1, h2⟩ := h.2.1 p hp
  unfold Config.raw
  rw [h1, Option.bind_some, h2, if_pos (List.mem_map_of_mem hq)]
  rfl

theorem C43aux.load_cases (writable : Bool) (d : Disk) :
    (∃ c, (d.here = some c ∨ d.here = none ∧ d.home = some c) ∧ C43aux.Complete c ∧ load writable d = .ok (c, d)) ∨
    (∃ c, d.here = some c ∧ ¬ C43aux.Complete c ∧
      load writable d = (fixConfig (some c)).map fun c' => (c', writeHere writable d c')) ∨
    (∃ c, d.here = none ∧ d.home = some c ∧ ¬ C43aux.Complete c ∧
      load writable d = (fixConfig (some c)).map fun c' => (c', writeHome writable d c')) ∨
    (d.here = none ∧ d.home = none ∧ load writable d = (fixConfig none).map fun c' => (c', writeHome writable d c')) := by
  rcases hh : d.here with _ | c
  · rcases hm : d.home with _ | c
    · right; right; right
      refine ⟨rfl, rfl, ?_⟩
      unfold load
      rw [hh, hm]
      simp only [bind, Except.bind]
      rcases hf : fixConfig none with e | c1
      · rfl
      · simp only
        rw [if_pos ((C43aux.check_iff _).2 (C43aux.fix_complete _ _ hf))]
        rfl
    · by_cases hc : C43aux.Complete c
      · left
        refine ⟨c, .inr ⟨rfl, rfl⟩, hc, ?_⟩
        unfold load
        rw [hh, hm]
        simp only
        rw [if_pos ((C43aux.check_iff _).2 hc)]
      · right; right; left
        refine ⟨c, rfl, rfl, hc, ?_⟩
        unfold load
        rw [hh, hm]
        simp only
        rw [if_neg (fun h => hc ((C43aux.check_iff _).1 h))]
        rcases hf : fixConfig (some c) with e | c1 <;> rfl
  · by_cases hc : C43aux.Complete c
    · left
      refine ⟨c, .inl rfl, hc, ?_⟩
      unfold load
      rw [hh]
      simp only
      rw [if_pos ((C43aux.check_iff _).2 hc)]
    · right; left
      refine ⟨c, rfl, hc, ?_⟩
      unfold load
      rw [hh]
      simp only
      rw [if_neg (fun h => hc ((C43aux.check_iff _).1 h))]
      rcases hf : fixConfig (some c) with e | c1 <;> rfl

/-- The configuration that the user wrote: the file in the working directory, otherwise the one in the home
directory. -/
def C43aux.user (d : Disk) : Option Config := d.here.or d.home

/-- Without percent signs, loading succeeds, every value of the user is kept and the missing ones get the defaults,
whether or not the repaired file can be written. -/
theorem C43_values_partial (writable : Bool) (d : Disk) (hp : ∀ c, C43aux.user d = some c → C43aux.Plain c) :
    ∃ c d', load writable d = .ok (c, d') ∧ ∀ s k dflt, (s, k, dflt) ∈ C43aux.required →
      c.get s k = .ok (match (C43aux.user d).bind fun u => u.raw s k with
        | some v => v
        | none => dflt.toList) := by
  have hdp : ∀ r ∈ C43aux.required, '%' ∉ r.2.2.toList := by decide +kernel
  have key : ∀ (conf : Option Config), (∀ c, conf = some c → C43aux.Plain c) → ∃ c', fixConfig conf = .ok c' ∧
      ∀ s k dflt, (s, k, dflt) ∈ C43aux.required → c'.get s k = .ok (match conf.bind fun u => u.raw s k with
        | some v => v
        | none => dflt.toList) := by
    intro conf hconf
    obtain ⟨c', h1, h2⟩ := C43aux.fix_exact conf hconf
    refine ⟨c', h1, ?_⟩
    intro s k dflt hr
    have h3 := C43aux.exact_raw c' _ h2 _ hr
    simp only at h3
    have h4 := C43aux.dflt_eq _ hr
    simp only at h4
    unfold C43aux.wanted at h3
    rw [h4] at h3
    rcases hv : conf.bind fun u => u.raw s k with _ | v
    · rw [hv] at h3
      exact get_plain _ _ _ _ h3 (hdp _ hr)
    · rw [hv] at h3
      rcases conf with _ | c
      · cases hv
      · exact get_plain _ _ _ _ h3 (hconf c rfl _ hr v hv)
  rcases C43aux.load_cases writable d with ⟨c, h1, h2, h3⟩ | ⟨c, h1, h2, h3⟩ | ⟨c, h0, h1, h2, h3⟩ | ⟨h0, h1, h3⟩
  · refine ⟨c, d, h3, ?_⟩
    have hu : C43aux.user d = some c := by
      unfold C43aux.user
      rcases h1 with h1 | ⟨h0, h1⟩
      · rw [h1]; rfl
      · rw [h0, h1]; rfl
    intro s k dflt hr
    obtain ⟨v, hv⟩ := h2 _ hr
    simp only at hv
    rw [hu, Option.bind_some, hv]
    exact get_plain _ _ _ _ hv (hp c hu _ hr v hv)
  · have hu : C43aux.user d = some c := by unfold C43aux.user; rw [h1]; rfl
    obtain ⟨c', h4, h5⟩ := key (some c) (by intro c'' h; rw [h] at hu; exact hp c'' hu)
    refine ⟨c', _, by rw [h3, h4]; rfl, ?_⟩
    rw [hu]; exact h5
  · have hu : C43aux.user d = some c := by unfold C43aux.user; rw [h0, h1]; rfl
    obtain ⟨c', h4, h5⟩ := key (some c) (by intro c'' h; rw [h] at hu; exact hp c'' hu)
    refine ⟨c', _, by rw [h3, h4]; rfl, ?_⟩
    rw [hu]; exact h5
  · have hu : C43aux.user d = none := by unfold C43aux.user; rw [h0, h1]; rfl
    obtain ⟨c', h4, h5⟩ := key none (by intro c'' h; cases h)
    refine ⟨c', _, by rw [h3, h4]; rfl, ?_⟩
    rw [hu]; exact h5

/-- Loading again from the files as they were left gives the same configuration and leaves the files alone. -/
theorem C43_twice (d d' : Disk) (c : Config) (h : load true d = .ok (c, d')) (writable : Bool) :
    load writable d' = .ok (c, d') := by
  have hc := C43_complete _ _ _ _ h
  have again : ∀ d'' : Disk, (d''.here = some c ∨ d''.here = none ∧ d''.home = some c) →
      load writable d'' = .ok (c, d'') := by
    intro d'' h1
    unfold load
    rcases h1 with h1 | ⟨h0, h1⟩
    · rw [h1]; simp only; rw [if_pos ((C43aux.check_iff _).2 hc)]
    · rw [h0, h1]; simp only; rw [if_pos ((C43aux.check_iff _).2 hc)]
  rcases C43aux.load_cases true d with ⟨c0, h1, h2, h3⟩ | ⟨c0, h1, h2, h3⟩ | ⟨c0, h0, h1, h2, h3⟩ | ⟨h0, h1, h3⟩
  · rw [h3] at h; cases h; exact again d h1
  · rw [h3] at h
    rcases hf : fixConfig (some c0) with e | c1
    · rw [hf] at h; cases h
    · rw [hf] at h; cases h; exact again _ (.inl rfl)
  · rw [h3] at h
    rcases hf : fixConfig (some c0) with e | c1
    · rw [hf] at h; cases h
    · rw [hf] at h; cases h; exact again _ (.inr ⟨h0, rfl⟩)
  · rw [h3] at h
    rcases hf : fixConfig none with e | c1
    · rw [hf] at h; cases h
    · rw [hf] at h; cases h; exact again _ (.inr ⟨h0, rfl⟩)

/-- Repairing twice is the same as once. -/
theorem C43_idempotent (conf : Option Config) (hp : ∀ c, conf = some c → C43aux.Plain c) :
    ∃ c', fixConfig conf = .ok c' ∧ fixConfig (some c') = .ok c' := by
  obtain ⟨c', h1, h2⟩ := C43aux.fix_exact conf hp
  refine ⟨c', h1, ?_⟩
  have hdp : ∀ r ∈ C43aux.required, '%' ∉ r.2.2.toList := by decide +kernel
  have hraw := C43aux.exact_raw c' _ h2
  have hplain : C43aux.Plain c' := by
    intro r hr v hv
    rw [hraw r hr] at hv
    rw [← Option.some.inj hv]
    unfold C43aux.wanted
    rcases hb : conf.bind fun c => c.raw r.1 r.2.1 with _ | u
    · rw [C43aux.dflt_eq r hr]; exact hdp r hr
    · rcases conf with _ | c
      · cases hb
      · exact hp c rfl r hr u hb
  obtain ⟨c'', h3, h4⟩ := C43aux.fix_exact (some c') (by intro c h; cases h; exact hplain)
  rw [h3]
  congr 1
  refine C43aux.exact_unique _ _ _ h4 ⟨h2.1, ?_, h2.2.2⟩
  intro p hp'
  obtain ⟨sec, h5, h6⟩ := h2.2.1 p hp'
  refine ⟨sec, h5, fun k => ?_⟩
  rw [h6]
  split_ifs with hk
  · congr 1
    have hr : c'.raw p.1 k = some (C43aux.wanted conf p.1 k (C43aux.dflt p.1 k)) := by
      unfold Config.raw
      rw [h5, Option.bind_some, h6, if_pos hk]
      rfl
    change _ = (c'.raw p.1 k).getD _
    rw [hr]
    rfl
  · rfl

/-- A complete file is not touched. -/
theorem C43_untouched (writable : Bool) (d : Disk) (c : Config) (hu : C43aux.user d = some c)
    (hc : C43aux.Complete c) : load writable d = .ok (c, d) := by
  unfold C43aux.user at hu
  unfold load
  rcases hh : d.here with _ | c'
  · rw [hh] at hu
    have hu : d.home = some c := by simpa using hu
    rw [hu]; simp only; rw [if_pos ((C43aux.check_iff _).2 hc)]
  · rw [hh] at hu
    have hu : c' = c := by simpa using hu
    subst hu
    simp only; rw [if_pos ((C43aux.check_iff _).2 hc)]

/-- A configuration with one section and one key. -/
def C43aux.one (s k : String) (v : Text) : Config :=
  ⟨fun s' => if s' = s then some fun k' => if k' = k then some v else none else none, fun _ => none⟩

/-- A value with an (escaped) percent sign makes the repair raise: galpy cannot be imported. -/
theorem C43_percent_fails (writable : Bool) :
    load writable ⟨some (C43aux.one "version-check" "last-non-interactive-check" "%%".toList), none⟩ =
      .error .badValue := by
  have h : ∀ (x : Except Err Config), (match x with | .error .badValue => true | _ => false) = true →
      x = .error .badValue := by
    rintro (e | c) h
    · cases e <;> first | rfl | cases h
    · cases h
  have hf : fixConfig (some (C43aux.one "version-check" "last-non-interactive-check" "%%".toList)) =
      .error .badValue := h _ (by decide +kernel)
  unfold load
  simp only
  rw [if_neg (by decide +kernel), hf]
  rfl

/-- The repair drops the sections and keys it does not know from the user's file. -/
theorem C43_dropped_fails :
    ∃ (c c' : Config) (d' : Disk), c.raw "mypackage" "mykey" = some "1".toList ∧
      load true ⟨some c, none⟩ = .ok (c', d') ∧ (d'.here.bind fun u => u.raw "mypackage" "mykey") = none := by
  obtain ⟨c', h1, h2⟩ := C43aux.fix_exact (some (C43aux.one "mypackage" "mykey" "1".toList)) (by
    intro c h; cases h
    intro r hr v hv
    have : ∀ r ∈ C43aux.required, r.1 ≠ "mypackage" := by decide +kernel
    simp [Config.raw, C43aux.one, this r hr] at hv)
  refine ⟨C43aux.one "mypackage" "mykey" "1".toList, c', ⟨some c', none⟩, by decide +kernel, ?_, ?_⟩
  · rcases C43aux.load_cases true ⟨some (C43aux.one "mypackage" "mykey" "1".toList), none⟩ with
      ⟨c, h3, h4, h5⟩ | ⟨c, h3, h4, h5⟩ | ⟨c, h0, h3, h4, h5⟩ | ⟨h0, h3, h5⟩
    · exfalso
      have h3 : c = C43aux.one "mypackage" "mykey" "1".toList := by
        rcases h3 with h3 | ⟨h3, -⟩
        · cases h3; rfl
        · cases h3
      subst h3
      obtain ⟨v, hv⟩ := h4 ("normalization", "ro", "8.") (by decide +kernel)
      simp [Config.raw, C43aux.one] at hv
    · cases h3; rw [h5, h1]; rfl
    · cases h0
    · cases h0
  · simp only [Option.bind_some, Config.raw]
    rw [h2.2.2 "mypackage" (by decide +kernel)]
    rfl

/-- A value that the user gives in the `[DEFAULT]` section is lost when the section of the key is missing. -/
theorem C43_default_section_fails :
    ∃ (c c' : Config) (d' : Disk), c.defaults "ro" = some "7.5".toList ∧
      load true ⟨some c, none⟩ = .ok (c', d') ∧ c'.get "normalization" "ro" = .ok "8.".toList := by
  set c : Config := ⟨fun _ => none, fun k => if k = "ro" then some "7.5".toList else none⟩ with hc
  have hraw : ∀ s k, c.raw s k = none := fun s k => by simp [Config.raw, hc]
  obtain ⟨c', d', h1, h2⟩ := C43_values_partial true ⟨some c, none⟩ (by
    intro c'' h
    have : c'' = c := by
      have h' : some c = some c'' := h
      exact (Option.some.inj h').symm
    subst this
    intro r _ v hv
    rw [hraw] at hv; cases hv)
  refine ⟨c, c', d', by simp [hc], h1, ?_⟩
  rw [h2 "normalization" "ro" "8." (by decide +kernel)]
  have : ((C43aux.user ⟨some c, none⟩).bind fun u => u.raw "normalization" "ro") = none := hraw "normalization" "ro"
  rw [this]

/-! ### Instances -/

/-- The user set only the distance scale: it is kept, the rest is added. -/
example : ∃ c d', load true ⟨none, some (C43aux.one "normalization" "ro" "8.2".toList)⟩ = .ok (c, d') ∧
    c.get "normalization" "ro" = .ok "8.2".toList ∧ c.get "normalization" "vo" = .ok "220.".toList := by
  obtain ⟨c, d', h1, h2⟩ := C43_values_partial true ⟨none, some (C43aux.one "normalization" "ro" "8.2".toList)⟩ (by
    intro c hc
    have : C43aux.one "normalization" "ro" "8.2".toList = c := by
      have h' : some _ = some c := hc
      exact Option.some.inj h'
    subst this
    intro r _ v hv
    simp only [Config.raw, C43aux.one] at hv
    split_ifs at hv with h
    · simp only [Option.bind_some] at hv
      split_ifs at hv
      · simp only [Option.or_none, Option.some.injEq] at hv
        rw [← hv]; decide +kernel
      · cases hv
    · cases hv)
  refine ⟨c, d', h1, ?_, ?_⟩
  · rw [h2 "normalization" "ro" "8." (by decide +kernel)]; decide +kernel
  · rw [h2 "normalization" "vo" "220." (by decide +kernel)]; decide +kernel

/-- There is no file yet, and the home directory cannot be written. -/
example : ∃ c d', load false ⟨none, none⟩ = .ok (c, d') ∧ c.get "plot" "seaborn-bovy-defaults" = .ok "False".toList := by
  obtain ⟨c, d', h1, h2⟩ := C43_values_partial false ⟨none, none⟩ (by intro c hc; cases hc)
  exact ⟨c, d', h1, h2 _ _ "False" (by decide +kernel)⟩

end Verif

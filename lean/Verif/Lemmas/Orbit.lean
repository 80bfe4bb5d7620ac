import Verif.Lemmas.OrbitIndex
import Mathlib.Data.List.Forall2

set_option autoImplicit false

/-! Lemmas about the orbit object: the arrays it stores always fit its shape. -/

namespace Verif.Orb
open Verif.Spec

variable {S P : Type}

theorem mapM_ok {α β ε : Type} {f : α → Except ε β} : ∀ {xs : List α} {ys : List β},
    xs.mapM f = .ok ys ↔ List.Forall₂ (fun x y => f x = .ok y) xs ys
  | [], ys => by
    simp only [List.mapM_nil, List.forall₂_nil_left_iff]
    constructor
    · intro h; cases h; rfl
    · rintro rfl; rfl
  | x :: xs, ys => by
    rw [List.mapM_cons, List.forall₂_cons_left_iff]
    cases hx : f x with
    | error e =>
      constructor
      · intro h; cases h
      · rintro ⟨_, _, h, _⟩; cases h
    | ok y =>
      cases hxs : xs.mapM f with
      | error e =>
        constructor
        · intro h; cases h
        · rintro ⟨b, u, h, h2, rfl⟩
          rw [mapM_ok.2 h2] at hxs; cases hxs
      | ok zs =>
        constructor
        · intro h
          cases h
          exact ⟨y, zs, rfl, mapM_ok.1 hxs, rfl⟩
        · rintro ⟨b, u, h, h2, rfl⟩
          cases h
          rw [mapM_ok.2 h2] at hxs
          cases hxs
          rfl

theorem mapM_some {α β : Type} {f : α → Option β} : ∀ {xs : List α} {ys : List β},
    xs.mapM f = some ys ↔ List.Forall₂ (fun x y => f x = some y) xs ys
  | [], ys => by
    simp only [List.mapM_nil, List.forall₂_nil_left_iff]
    constructor
    · intro h; cases h; rfl
    · rintro rfl; rfl
  | x :: xs, ys => by
    rw [List.mapM_cons, List.forall₂_cons_left_iff]
    cases hx : f x with
    | none =>
      constructor
      · intro h; cases h
      · rintro ⟨_, _, h, _⟩; cases h
    | some y =>
      cases hxs : xs.mapM f with
      | none =>
        constructor
        · intro h; cases h
        · rintro ⟨b, u, h, h2, rfl⟩
          rw [mapM_some.2 h2] at hxs; cases hxs
      | some zs =>
        constructor
        · intro h
          cases h
          exact ⟨y, zs, rfl, mapM_some.1 hxs, rfl⟩
        · rintro ⟨b, u, h, h2, rfl⟩
          cases h
          rw [mapM_some.2 h2] at hxs
          cases hxs
          rfl

theorem take_ok {α : Type} {xs ys : List α} {is : List Nat} :
    take xs is = .ok ys ↔ List.Forall₂ (fun i y => xs[i]? = some y) is ys := by
  unfold take
  rw [mapM_ok]
  constructor <;> intro h <;> refine h.imp ?_ <;> intro i y hy
  · cases hx : xs[i]? with
    | none => rw [hx] at hy; cases hy
    | some x => rw [hx] at hy; cases hy; rfl
  · rw [hy]

theorem take_get {α : Type} {xs ys : List α} {is : List Nat} (h : take xs is = .ok ys) {m i : Nat}
    (hm : is[m]? = some i) : ys[m]? = xs[i]? ∧ (xs[i]?).isSome := by
  have h2 := take_ok.1 h
  obtain ⟨hm1, hm2⟩ := List.getElem?_eq_some_iff.1 hm
  have hl := h2.length_eq
  have h3 := h2.get (i := m) hm1 (by omega)
  simp only [List.get_eq_getElem] at h3
  rw [hm2] at h3
  rw [h3, List.getElem?_eq_getElem (by omega)]
  simp

theorem take_total {α : Type} {xs : List α} {is : List Nat} (h : ∀ i ∈ is, i < xs.length) :
    ∃ ys, take xs is = .ok ys := by
  refine ⟨is.filterMap (xs[·]?), take_ok.2 ?_⟩
  induction is with
  | nil => simp
  | cons i is ih =>
    have hi : xs[i]? = some (xs[i]'(h i (by simp))) := List.getElem?_eq_getElem (h i (by simp))
    rw [List.filterMap_cons, hi]
    exact .cons hi (ih fun j hj => h j (by simp [hj]))

theorem take_length {α : Type} {xs ys : List α} {is : List Nat} (h : take xs is = .ok ys) :
    ys.length = is.length := (take_ok.1 h).length_eq.symm

/-! ### Index arrays -/

/-- The source multi-index of an entry of a basic selection. -/
inductive Denotes : List Nat → List AxisKey → List Nat → List Nat → Prop
  | nil (sh J : List Nat) : Denotes sh [] J J
  | int {n p : Nat} {rest J I : List Nat} {k : Int} {ks : List AxisKey} (hp : IsPos n k p)
      (h : Denotes rest ks J I) : Denotes (n :: rest) (.int k :: ks) J (p :: I)
  | slice {n j r : Nat} {rest J I rs : List Nat} {a b c : Option Int} {ks : List AxisKey}
      (hs : IsSlice n a b c rs) (hr : rs[j]? = some r) (h : Denotes rest ks J I) :
      Denotes (n :: rest) (.slice a b c :: ks) (j :: J) (r :: I)

theorem basicIdx_length : ∀ {sh : List Nat} {ks : List AxisKey} {flat sh' : List Nat},
    basicIdx sh ks = .ok (flat, sh') → flat.length = sh'.prod
  | sh, [], flat, sh', h => by
    cases sh <;> (simp only [basicIdx] at h; cases h; simp)
  | [], _ :: _, _, _, h => by simp [basicIdx] at h
  | n :: rest, .int k :: ks, flat, sh', h => by
    simp only [basicIdx] at h
    cases hp : pos n k with
    | none => rw [hp] at h; cases h
    | some p =>
      rw [hp] at h
      cases hb : basicIdx rest ks with
      | error e => rw [hb] at h; cases h
      | ok r =>
        rw [hb] at h
        cases h
        simpa using basicIdx_length hb
  | n :: rest, .slice a b c :: ks, flat, sh', h => by
    simp only [basicIdx] at h
    cases hp : sliceRows n a b c with
    | none => rw [hp] at h; cases h
    | some rs =>
      rw [hp] at h
      cases hb : basicIdx rest ks with
      | error e => rw [hb] at h; cases h
      | ok r =>
        rw [hb] at h
        cases h
        rw [flatMap_len, List.prod_cons, basicIdx_length hb]

theorem basicIdx_place : ∀ {sh : List Nat} {ks : List AxisKey} {flat sh' : List Nat},
    basicIdx sh ks = .ok (flat, sh') → ∀ {J : List Nat} {m : Nat}, place sh' J = some m →
      ∃ I q, Denotes sh ks J I ∧ place sh I = some q ∧ flat[m]? = some q
  | sh, [], flat, sh', h, J, m, hJ => by
    have : (flat, sh') = (List.range sh.prod, sh) := by
      cases sh <;> (simp only [basicIdx] at h; cases h; rfl)
    cases this
    refine ⟨J, m, .nil _ _, hJ, ?_⟩
    rw [List.getElem?_range (place_lt hJ)]
  | [], _ :: _, _, _, h, _, _, _ => by simp [basicIdx] at h
  | n :: rest, .int k :: ks, flat, sh', h, J, m, hJ => by
    simp only [basicIdx] at h
    cases hp : pos n k with
    | none => rw [hp] at h; cases h
    | some p =>
      rw [hp] at h
      cases hb : basicIdx rest ks with
      | error e => rw [hb] at h; cases h
      | ok r =>
        rw [hb] at h
        cases h
        obtain ⟨I, q, h1, h2, h3⟩ := basicIdx_place hb hJ
        have hpos := (pos_iff _ _ _).1 hp
        refine ⟨p :: I, p * rest.prod + q, .int hpos h1, ?_, ?_⟩
        · simp only [place]
          rw [if_pos hpos.1, h2]
          rfl
        · rw [List.getElem?_map, h3]
          rfl
  | n :: rest, .slice a b c :: ks, flat, sh', h, J, m, hJ => by
    simp only [basicIdx] at h
    cases hp : sliceRows n a b c with
    | none => rw [hp] at h; cases h
    | some rs =>
      rw [hp] at h
      cases hb : basicIdx rest ks with
      | error e => rw [hb] at h; cases h
      | ok r =>
        rw [hb] at h
        cases h
        cases J with
        | nil => simp [place] at hJ
        | cons j J =>
          simp only [place] at hJ
          split_ifs at hJ with hj
          obtain ⟨q, hq, rfl⟩ := Option.map_eq_some_iff.1 hJ
          obtain ⟨I, q', h1, h2, h3⟩ := basicIdx_place hb hq
          have hs := sliceRows_some hp
          have hr : rs[j]? = some rs[j] := List.getElem?_eq_getElem hj
          refine ⟨rs[j] :: I, rs[j] * rest.prod + q', .slice hs hr h1, ?_, ?_⟩
          · simp only [place]
            rw [if_pos (isSlice_lt hs (List.getElem_mem hj)), h2]
            rfl
          · rw [← basicIdx_length hb]
            exact flatMap_get hr h3

theorem advRows_lt {n : Nat} {key : Key} {rs : List Nat} (h : advRows n key = some rs) :
    ∀ r ∈ rs, r < n := by
  cases key with
  | basic ks => simp [advRows] at h
  | fancy ks =>
    simp only [advRows] at h
    have h2 := mapM_some.1 h
    intro r hr
    obtain ⟨i, hi, rfl⟩ := List.getElem_of_mem hr
    have := h2.get (i := i) (by have := h2.length_eq; omega) hi
    exact ((pos_iff _ _ _).1 this).1
  | mask bs =>
    simp only [advRows] at h
    split_ifs at h
    cases h
    intro r hr
    exact List.mem_range.1 (List.mem_filter.1 hr).1

theorem advIdx_place {n : Nat} {rest rs J : List Nat} {m : Nat} (hlt : ∀ r ∈ rs, r < n)
    (hJ : place (rs.length :: rest) J = some m) :
    ∃ j J' r q, J = j :: J' ∧ rs[j]? = some r ∧ place (n :: rest) (r :: J') = some q ∧
      (rs.flatMap fun r => (List.range rest.prod).map (r * rest.prod + ·))[m]? = some q := by
  cases J with
  | nil => simp [place] at hJ
  | cons j J =>
    simp only [place] at hJ
    split_ifs at hJ with hj
    obtain ⟨q, hq, rfl⟩ := Option.map_eq_some_iff.1 hJ
    have hr : rs[j]? = some rs[j] := List.getElem?_eq_getElem hj
    refine ⟨j, J, rs[j], rs[j] * rest.prod + q, rfl, hr, ?_, ?_⟩
    · simp only [place]
      rw [if_pos (hlt _ (List.getElem_mem hj)), hq]
      rfl
    · have := flatMap_get (sub := List.range rest.prod) (q := rest.prod) hr
        (List.getElem?_range (place_lt hq))
      rwa [List.length_range] at this

/-! ### Well-formedness -/

/-- The stored arrays fit the shape. -/
structure WF (o : Orbit S P) : Prop where
  vxvv : o.vxvv.length = o.shape.prod
  orbit : ∀ xs, o.orbit = some xs → xs.length = o.shape.prod
  t : ∀ xs, o.orbit = some xs → ∃ t, o.t = some t
  indiv : ∀ rs, o.t = some (.indiv rs) → rs.length = o.shape.prod
  name : ∀ ns, o.name = some ns → ns.length = o.shape.prod

theorem indxArray_bound {sh : List Nat} {key : Key} {flat sh' : List Nat}
    (h : indxArray sh key = .ok (flat, sh')) : flat.length = sh'.prod ∧ ∀ i ∈ flat, i < sh.prod := by
  have adv : ∀ {n : Nat} {rest rs : List Nat}, (∀ r ∈ rs, r < n) →
      (rs.flatMap fun r => (List.range rest.prod).map (r * rest.prod + ·)).length = (rs.length :: rest).prod ∧
      ∀ i ∈ (rs.flatMap fun r => (List.range rest.prod).map (r * rest.prod + ·)), i < (n :: rest).prod := by
    intro n rest rs hlt
    refine ⟨by rw [flatMap_len]; simp, ?_⟩
    intro i hi
    simp only [List.mem_flatMap, List.mem_map, List.mem_range] at hi
    obtain ⟨r, hr, j, hj, rfl⟩ := hi
    rw [List.prod_cons]
    calc r * rest.prod + j < r * rest.prod + rest.prod := by omega
      _ = (r + 1) * rest.prod := by ring
      _ ≤ n * rest.prod := Nat.mul_le_mul_right _ (hlt r hr)
  have bas : ∀ {sh : List Nat} {ks : List AxisKey} {flat sh' : List Nat},
      basicIdx sh ks = .ok (flat, sh') → ∀ i ∈ flat, i < sh.prod := by
    intro sh ks
    induction ks generalizing sh with
    | nil =>
      intro flat sh' h
      have : (flat, sh') = (List.range sh.prod, sh) := by
        cases sh <;> (simp only [basicIdx] at h; cases h; rfl)
      cases this
      intro i hi
      exact List.mem_range.1 hi
    | cons k ks ih =>
      intro flat sh' h
      cases sh with
      | nil => simp [basicIdx] at h
      | cons n rest =>
        cases k with
        | int k =>
          simp only [basicIdx] at h
          cases hp : pos n k with
          | none => rw [hp] at h; cases h
          | some p =>
            rw [hp] at h
            cases hb : basicIdx rest ks with
            | error e => rw [hb] at h; cases h
            | ok r =>
              rw [hb] at h
              cases h
              intro i hi
              obtain ⟨j, hj, rfl⟩ := List.mem_map.1 hi
              have hj' := ih hb j hj
              have hpos := ((pos_iff _ _ _).1 hp).1
              rw [List.prod_cons]
              calc p * rest.prod + j < p * rest.prod + rest.prod := by omega
                _ = (p + 1) * rest.prod := by ring
                _ ≤ n * rest.prod := Nat.mul_le_mul_right _ hpos
        | slice a b c =>
          simp only [basicIdx] at h
          cases hp : sliceRows n a b c with
          | none => rw [hp] at h; cases h
          | some rs =>
            rw [hp] at h
            cases hb : basicIdx rest ks with
            | error e => rw [hb] at h; cases h
            | ok r =>
              rw [hb] at h
              cases h
              intro i hi
              simp only [List.mem_flatMap, List.mem_map] at hi
              obtain ⟨r, hr, j, hj, rfl⟩ := hi
              have hj' := ih hb j hj
              have hpos := isSlice_lt (sliceRows_some hp) hr
              rw [List.prod_cons]
              calc r * rest.prod + j < r * rest.prod + rest.prod := by omega
                _ = (r + 1) * rest.prod := by ring
                _ ≤ n * rest.prod := Nat.mul_le_mul_right _ hpos
  have advk : ∀ key' : Key, advIdx key' sh = .ok (flat, sh') →
      flat.length = sh'.prod ∧ ∀ i ∈ flat, i < sh.prod := by
    intro key' h
    cases sh with
    | nil => cases h
    | cons n rest =>
      simp only [advIdx] at h
      cases hr : advRows n key' with
      | none => rw [hr] at h; cases h
      | some rs =>
        rw [hr] at h
        cases h
        exact adv (advRows_lt hr)
  cases key with
  | basic ks => exact ⟨basicIdx_length h, bas h⟩
  | fancy ks => exact advk (.fancy ks) h
  | mask bs => exact advk (.mask bs) h

theorem bind_ok {α β ε : Type} {x : Except ε α} {f : α → Except ε β} {b : β} (h : x.bind f = .ok b) :
    ∃ a, x = .ok a ∧ f a = .ok b := by
  cases x with
  | error e => cases h
  | ok a => exact ⟨a, rfl, h⟩

/-- What a successful `getItem` returns. -/
theorem getItem_ok {o o' : Orbit S P} {key : Key} (h : getItem o key = .ok o') :
    ∃ flat vs t xs p nm, indxArray o.shape key = .ok (flat, o'.shape) ∧ take o.vxvv flat = .ok vs ∧
      takeIntegration o flat = .ok (t, xs, p) ∧ takeName o flat = .ok nm ∧
      o' = { shape := o'.shape, vxvv := vs, t := t, orbit := xs, pot := p, origPot := none,
             cannotContinue := false, name := nm, ro := o.ro, vo := o.vo, roSet := o.roSet,
             voSet := o.voSet } := by
  unfold getItem at h
  obtain ⟨⟨flat, sh⟩, h1, h⟩ := bind_ok h
  obtain ⟨vs, h2, h⟩ := bind_ok h
  obtain ⟨⟨t, xs, p⟩, h3, h⟩ := bind_ok h
  obtain ⟨nm, h4, h⟩ := bind_ok h
  cases h
  exact ⟨flat, vs, t, xs, p, nm, h1, h2, h3, h4, rfl⟩

theorem takeIntegration_ok {o : Orbit S P} {flat : List Nat} {t : Option Times}
    {xs : Option (List (List S))} {p : Option P} (h : takeIntegration o flat = .ok (t, xs, p)) :
    (o.orbit = none ∧ t = none ∧ xs = none ∧ p = none) ∨
    (∃ ys zs, o.orbit = some ys ∧ xs = some zs ∧ p = o.pot ∧ take ys flat = .ok zs ∧
      takeTimes flat o.t = .ok t) := by
  unfold takeIntegration at h
  cases ho : o.orbit with
  | none => rw [ho] at h; cases h; exact Or.inl ⟨rfl, rfl, rfl, rfl⟩
  | some ys =>
    rw [ho] at h
    obtain ⟨t', h1, h⟩ := bind_ok h
    obtain ⟨zs, h2, h⟩ := bind_ok h
    cases h
    exact Or.inr ⟨ys, zs, rfl, rfl, rfl, h2, h1⟩

theorem takeTimes_ok {flat : List Nat} {st t : Option Times} (h : takeTimes flat st = .ok t) :
    (∃ ts, st = some (.shared ts) ∧ t = some (.shared ts)) ∨
    (∃ rs rs', st = some (.indiv rs) ∧ t = some (.indiv rs') ∧ take rs flat = .ok rs') := by
  cases st with
  | none => cases h
  | some st =>
    cases st with
    | shared ts => cases h; exact Or.inl ⟨ts, rfl, rfl⟩
    | indiv rs =>
      obtain ⟨rs', h1, h⟩ := bind_ok h
      cases h
      exact Or.inr ⟨rs, rs', rfl, rfl, h1⟩

theorem takeName_ok {o : Orbit S P} {flat : List Nat} {nm : Option (List String)}
    (h : takeName o flat = .ok nm) :
    (o.name = none ∧ nm = none) ∨ (∃ ns ns', o.name = some ns ∧ nm = some ns' ∧ take ns flat = .ok ns') := by
  unfold takeName at h
  cases ho : o.name with
  | none => rw [ho] at h; cases h; exact Or.inl ⟨rfl, rfl⟩
  | some ns =>
    rw [ho] at h
    obtain ⟨ns', h1, h⟩ := bind_ok h
    cases h
    exact Or.inr ⟨ns, ns', rfl, rfl, h1⟩

theorem WF.getItem {o o' : Orbit S P} {key : Key} (h : getItem o key = .ok o') : WF o' := by
  obtain ⟨flat, vs, t, xs, p, nm, h1, h2, h3, h4, h5⟩ := getItem_ok h
  have hl := (indxArray_bound h1).1
  rw [h5]
  refine ⟨(take_length h2).trans hl, ?_, ?_, ?_, ?_⟩
  · intro zs hz
    rcases takeIntegration_ok h3 with ⟨_, _, hx, _⟩ | ⟨ys, zs', _, hx, _, hk, _⟩
    · simp only [hx, reduceCtorEq] at hz
    · simp only [hx, Option.some.injEq] at hz
      subst hz
      exact (take_length hk).trans hl
  · intro zs hz
    rcases takeIntegration_ok h3 with ⟨_, _, hx, _⟩ | ⟨ys, zs', _, hx, _, hk, ht⟩
    · simp only [hx, reduceCtorEq] at hz
    · rcases takeTimes_ok ht with ⟨ts, _, ht⟩ | ⟨rs, rs', _, ht, _⟩ <;> exact ⟨_, ht⟩
  · intro rs hrs
    rcases takeIntegration_ok h3 with ⟨_, ht, hx, _⟩ | ⟨ys, zs', _, hx, _, hk, ht⟩
    · simp only [ht, reduceCtorEq] at hrs
    · rcases takeTimes_ok ht with ⟨ts, _, ht⟩ | ⟨rs0, rs', _, ht, hk⟩
      · simp [ht] at hrs
      · simp only [ht, Option.some.injEq, Times.indiv.injEq] at hrs
        subst hrs
        exact (take_length hk).trans hl
  · intro ns hns
    rcases takeName_ok h4 with ⟨_, hn⟩ | ⟨ns0, ns', _, hn, hk⟩
    · simp only [hn, reduceCtorEq] at hns
    · simp only [hn, Option.some.injEq] at hns
      subst hns
      exact (take_length hk).trans hl

/-- On an orbit whose arrays fit its shape, only the index expression can make `getItem` fail. -/
theorem getItem_total {o : Orbit S P} (w : WF o) {key : Key} {flat sh : List Nat}
    (h : indxArray o.shape key = .ok (flat, sh)) : ∃ o', getItem o key = .ok o' := by
  have hb := (indxArray_bound h).2
  obtain ⟨vs, h2⟩ := take_total (xs := o.vxvv) (is := flat) (by rw [w.vxvv]; exact hb)
  have h3 : ∃ r, takeIntegration o flat = .ok r := by
    unfold takeIntegration
    cases ho : o.orbit with
    | none => exact ⟨_, rfl⟩
    | some xs =>
      obtain ⟨t, ht⟩ := w.t xs ho
      obtain ⟨ys, hys⟩ := take_total (xs := xs) (is := flat) (by rw [w.orbit xs ho]; exact hb)
      cases t with
      | shared ts =>
        refine ⟨(some (.shared ts), some ys, o.pot), ?_⟩
        simp only [ht, takeTimes, hys]
        rfl
      | indiv rs =>
        obtain ⟨zs, hzs⟩ := take_total (xs := rs) (is := flat) (by rw [w.indiv rs ht]; exact hb)
        refine ⟨(some (.indiv zs), some ys, o.pot), ?_⟩
        simp only [ht, takeTimes, hys, hzs]
        rfl
  have h4 : ∃ r, takeName o flat = .ok r := by
    unfold takeName
    cases hn : o.name with
    | none => exact ⟨_, rfl⟩
    | some ns =>
      obtain ⟨ys, hys⟩ := take_total (xs := ns) (is := flat) (by rw [w.name ns hn]; exact hb)
      refine ⟨some ys, ?_⟩
      simp only [hys]
      rfl
  obtain ⟨⟨t, xs, p⟩, h3⟩ := h3
  obtain ⟨nm, h4⟩ := h4
  unfold getItem
  simp only [h, h2, h3, h4, bind, Except.bind]
  exact ⟨_, rfl⟩

theorem runAll_length {integ : P → S → List ℝ → Except Err (List S)} {p : P} {t : Times} {vs : List S}
    {out : List (List S)} (h : runAll integ p t vs = .ok out) : out.length = vs.length := by
  have := (mapM_ok.1 h).length_eq
  rw [← this, List.length_zipIdx]

theorem begin_none (o : Orbit S P) (t : Times) (p : P) :
    begin o t p none = (.ok none, { o with t := some t, pot := some p, origPot := some p }) := rfl

/-- The four possible ends of the part before the integration routine in a continuation. -/
theorem begin_some (o : Orbit S P) (t : Times) (p : P) (d : Dir) :
    (∃ e, begin o t p (some d) = (.error e, o)) ∨
    ∃ ts xs starts, o.t = some (.shared ts) ∧ o.orbit = some xs ∧ xs.mapM (startState d) = .ok starts ∧
      begin o t p (some d) = (.ok (some (d, ts, xs, o.vxvv)),
        { o with vxvv := starts, t := some t, pot := some p, origPot := some p }) := by
  unfold begin
  cases ht : o.t with
  | none => exact Or.inl ⟨_, rfl⟩
  | some st =>
    cases st with
    | indiv rs => exact Or.inl ⟨_, rfl⟩
    | shared ts =>
      cases ho : o.orbit with
      | none => exact Or.inl ⟨_, rfl⟩
      | some xs =>
        cases hs : xs.mapM (startState d) with
        | error e => exact Or.inl ⟨e, by simp only [hs]⟩
        | ok starts => exact Or.inr ⟨ts, xs, starts, rfl, rfl, hs, by simp only [hs]⟩

theorem direction_ok_shared {o : Orbit S P} {t : Times} {d : Dir} (h : shouldContinue o t = .ok (some d)) :
    o.cannotContinue = false ∧ ∃ new old p q, t = .shared new ∧ o.t = some (.shared old) ∧ o.pot = some p ∧
      o.origPot = some q ∧ direction new old = .ok (some d) := by
  unfold shouldContinue at h
  cases hc : o.cannotContinue with
  | true => rw [hc] at h; cases h
  | false =>
    rw [hc] at h
    cases ht : o.t with
    | none => rw [ht] at h; cases h
    | some st =>
      rw [ht] at h
      cases hp : o.pot with
      | none => rw [hp] at h; cases h
      | some p =>
        rw [hp] at h
        cases t with
        | indiv rows => cases h
        | shared new =>
          cases st with
          | indiv rows => cases h
          | shared old =>
            cases hq : o.origPot with
            | none => rw [hq] at h; cases h
            | some q =>
              rw [hq] at h
              exact ⟨rfl, new, old, p, q, rfl, rfl, rfl, rfl, h⟩

/-- The argument of `integrate` is an array: its leading shape fits its rows. -/
def TArg.Fits : TArg → Prop
  | .shared _ => True
  | .indiv lead rows => rows.length = lead.prod

theorem checkTimes_ok {o : Orbit S P} {lead : List Nat} {rows : List (List ℝ)} {ode : Bool} {dt : Option ℝ}
    (h : checkTimes o (.indiv lead rows) ode dt = .ok ()) : lead = o.shape := by
  unfold checkTimes at h
  by_contra hne
  simp only [ne_eq, hne, not_false_eq_true, if_true] at h
  cases h

/-- The possible outcomes of `integrate`. -/
inductive Outcome (integ : P → S → List ℝ → Except Err (List S)) (o : Orbit S P) (t : TArg) (p : P)
    (ode : Bool) (dt : Option ℝ) : Except Err Unit → Orbit S P → Prop
  /-- refused before anything is changed -/
  | refused (e : Err) : Outcome integ o t p ode dt (.error e) o
  /-- the integration routine raised -/
  | restartRaised (e : Err) (hc : checkTimes o t ode dt = .ok ()) (hs : shouldContinue o t.times = .ok none)
      (h : runAll integ p t.times o.vxvv = .error e) :
      Outcome integ o t p ode dt (.error e) { o with t := some t.times, pot := some p, origPot := some p }
  | restarted (out : List (List S)) (hc : checkTimes o t ode dt = .ok ())
      (hs : shouldContinue o t.times = .ok none) (h : runAll integ p t.times o.vxvv = .ok out) :
      Outcome integ o t p ode dt (.ok ())
        { o with t := some t.times, pot := some p, origPot := some p, orbit := some out }
  | continueRaised (d : Dir) (new old : List ℝ) (xs : List (List S)) (starts : List S) (e : Err)
      (hc : checkTimes o t ode dt = .ok ())
      (ht : t = .shared new) (hd : shouldContinue o (.shared new) = .ok (some d))
      (hold : o.t = some (.shared old)) (hx : o.orbit = some xs) (hst : xs.mapM (startState d) = .ok starts)
      (h : runAll integ p (.shared new) starts = .error e) :
      Outcome integ o t p ode dt (.error e)
        { o with vxvv := starts, t := some (.shared new), pot := some p, origPot := some p }
  | continued (d : Dir) (new old : List ℝ) (xs : List (List S)) (starts : List S) (out : List (List S))
      (hc : checkTimes o t ode dt = .ok ())
      (ht : t = .shared new) (hd : shouldContinue o (.shared new) = .ok (some d))
      (hold : o.t = some (.shared old)) (hx : o.orbit = some xs) (hst : xs.mapM (startState d) = .ok starts)
      (h : runAll integ p (.shared new) starts = .ok out) :
      Outcome integ o t p ode dt (.ok ())
        (merge { o with pot := some p, origPot := some p } out new (some (d, old, xs, o.vxvv)))

theorem integrate_outcome (integ : P → S → List ℝ → Except Err (List S)) (o : Orbit S P) (t : TArg) (p : P)
    (ode : Bool) (dt : Option ℝ) :
    Outcome integ o t p ode dt (integrate integ o t p ode dt).1 (integrate integ o t p ode dt).2 := by
  unfold integrate
  cases hc : checkTimes o t ode dt with
  | error e => exact .refused e
  | ok u =>
    cases hs : shouldContinue o t.times with
    | error e => simp only; exact .refused e
    | ok d =>
      simp only
      cases d with
      | none =>
        rw [begin_none]
        simp only
        cases hr : runAll integ p t.times o.vxvv with
        | error e => exact .restartRaised e hc hs hr
        | ok out => exact .restarted out hc hs hr
      | some d =>
        rcases begin_some o t.times p d with ⟨e, hb⟩ | ⟨old, xs, starts, hold, hx, hst, hb⟩
        · rw [hb]
          exact .refused e
        · rw [hb]
          simp only
          obtain ⟨_, new, old', _, _, hnew, _, _, _, _⟩ := direction_ok_shared hs
          have ht : t = .shared new := by
            cases t with
            | shared ts => cases hnew; rfl
            | indiv l r => cases hnew
          subst ht
          simp only [TArg.times] at hs ⊢
          cases hr : runAll integ p (.shared new) starts with
          | error e => exact .continueRaised d new old xs starts e hc rfl hs hold hx hst hr
          | ok out =>
            have := Outcome.continued (integ := integ) (p := p) (ode := ode) (dt := dt) d new old xs starts out
              hc rfl hs hold hx hst hr
            cases d <;> exact this

theorem WF.outcome {integ : P → S → List ℝ → Except Err (List S)} {o o' : Orbit S P} {t : TArg} {p : P}
    {ode : Bool} {dt : Option ℝ} {r : Except Err Unit} (w : WF o) (ht : t.Fits)
    (h : Outcome integ o t p ode dt r o') : WF o' := by
  have hind : ∀ {rs : List (List ℝ)}, checkTimes o t ode dt = .ok () → some t.times = some (.indiv rs) →
      rs.length = o.shape.prod := by
    intro rs hc hrs
    cases t with
    | shared ts => simp [TArg.times] at hrs
    | indiv lead rows =>
      simp only [TArg.times, Option.some.injEq, Times.indiv.injEq] at hrs
      subst hrs
      have := checkTimes_ok hc
      subst this
      exact ht
  cases h with
  | refused => exact w
  | restartRaised e hc hs h =>
    exact ⟨w.vxvv, w.orbit, fun xs hx => ⟨_, rfl⟩, fun rs hrs => hind hc hrs, w.name⟩
  | restarted out hc hs h =>
    refine ⟨w.vxvv, ?_, fun xs hx => ⟨_, rfl⟩, fun rs hrs => hind hc hrs, w.name⟩
    intro xs hx
    cases hx
    exact (runAll_length h).trans w.vxvv
  | continueRaised d new old xs starts e hc ht' hd hold hx hst h =>
    have hl : starts.length = o.shape.prod := (mapM_ok.1 hst).length_eq.symm.trans (w.orbit xs hx)
    exact ⟨hl, w.orbit, fun xs hx => ⟨_, rfl⟩, fun rs hrs => by simp at hrs, w.name⟩
  | continued d new old xs starts out hc ht' hd hold hx hst h =>
    have hl : starts.length = o.shape.prod := (mapM_ok.1 hst).length_eq.symm.trans (w.orbit xs hx)
    have hl2 : out.length = o.shape.prod := (runAll_length h).trans hl
    have hl3 := w.orbit xs hx
    cases d
    · refine ⟨w.vxvv, ?_, fun xs hx => ⟨_, rfl⟩, fun rs hrs => by simp [merge] at hrs, w.name⟩
      intro ys hy
      cases hy
      simp only [merge, List.length_zipWith, hl2, hl3, min_self]
    · refine ⟨w.vxvv, ?_, fun xs hx => ⟨_, rfl⟩, fun rs hrs => by simp [merge] at hrs, w.name⟩
      intro ys hy
      cases hy
      simp only [merge, List.length_zipWith, hl2, hl3, min_self]

/-! ### Reachable objects -/

/-- The objects that can be obtained from the constructor by any sequence of the modelled operations,
with any integration routine (also one that raises), including the objects left behind by operations
that raised. -/
inductive Reach : Orbit S P → Prop
  | new {shape : List Nat} {vs : List S} {ro vo : Scale} {a b : Bool} (h : vs.length = shape.prod) :
      Reach (new shape vs ro vo a b)
  | named {shape : List Nat} {vs : List S} {ro vo : Scale} {a b : Bool} (ns : List String)
      (h : vs.length = shape.prod) (hn : ns.length = shape.prod) :
      Reach { new shape vs ro vo a b with name := some ns }
  | getItem {o o' : Orbit S P} {key : Key} (h : Reach o) (hk : getItem o key = .ok o') : Reach o'
  | reshape {o : Orbit S P} (sh : List Nat) (h : Reach o) : Reach (reshape o sh).2
  | integrate {o : Orbit S P} (integ : P → S → List ℝ → Except Err (List S)) (t : TArg) (p : P) (ode : Bool)
      (dt : Option ℝ) (h : Reach o) (ht : t.Fits) : Reach (integrate integ o t p ode dt).2
  | dxdv {o : Orbit S P} (integ : P → S → List ℝ → Except Err (List S)) (ts : List ℝ) (p : P) (ode : Bool)
      (h : Reach o) : Reach (integrateDxdv integ o ts p ode).2
  | sos {o : Orbit S P} (sos : P → S → Except Err (List S × List ℝ)) (p : P) (h : Reach o) :
      Reach (integrateSOS sos o p).2
  | brute {o : Orbit S P} (integ : P → S → List ℝ → Except Err (List S)) (cols : List Nat) (t : TArg) (p : P)
      (ode : Bool) (dt : Option ℝ) (h : Reach o) (ht : t.Fits) : Reach (bruteSOS integ cols o t p ode dt).2
  | flipInplace {o : Orbit S P} (rev : S → S) (h : Reach o) : Reach (flipInplace rev o)
  | flip {o : Orbit S P} (rev : S → S) (h : Reach o) : Reach (flip rev o)

theorem Reach.wf {o : Orbit S P} (h : Reach o) : WF o := by
  induction h with
  | new h =>
    exact ⟨h, fun _ hx => (by cases hx), fun _ hx => (by cases hx), fun _ hx => (by cases hx),
      fun _ hx => (by cases hx)⟩
  | named ns h hn =>
    refine ⟨h, fun _ hx => (by cases hx), fun _ hx => (by cases hx), fun _ hx => (by cases hx), ?_⟩
    intro _ hx
    cases hx
    exact hn
  | getItem h hk ih => exact WF.getItem hk
  | @reshape o sh h ih =>
    unfold Orb.reshape
    split_ifs with hp
    · exact ⟨by rw [ih.vxvv, hp], fun xs hx => by rw [ih.orbit xs hx, hp], ih.t,
        fun rs hr => by rw [ih.indiv rs hr, hp], fun ns hn => by rw [ih.name ns hn, hp]⟩
    · exact ih
  | integrate integ t p ode dt h ht ih => exact ih.outcome ht (integrate_outcome integ _ t p ode dt)
  | @dxdv o integ ts p ode h ih =>
    unfold integrateDxdv
    cases evenlySpaced ode ts with
    | error e => exact ih
    | ok b =>
      cases b with
      | false => exact ih
      | true =>
        simp only
        cases hr : runAll integ p (.shared ts) o.vxvv with
        | error e => exact ⟨ih.vxvv, ih.orbit, fun _ _ => ⟨_, rfl⟩, fun _ hx => (by cases hx), ih.name⟩
        | ok out =>
          refine ⟨ih.vxvv, ?_, fun _ _ => ⟨_, rfl⟩, fun _ hx => (by cases hx), ih.name⟩
          intro xs hx
          cases hx
          exact (runAll_length hr).trans ih.vxvv
  | @sos o sos p h ih =>
    unfold integrateSOS
    cases hr : o.vxvv.mapM (sos p) with
    | error e => exact ⟨ih.vxvv, ih.orbit, ih.t, ih.indiv, ih.name⟩
    | ok out =>
      have hl := (mapM_ok.1 hr).length_eq
      refine ⟨ih.vxvv, ?_, fun _ _ => ⟨_, rfl⟩, ?_, ih.name⟩
      · intro xs hx
        cases hx
        rw [List.length_map, ← hl]
        exact ih.vxvv
      · intro rs hx
        cases hx
        rw [List.length_map, ← hl]
        exact ih.vxvv
  | @brute o integ cols t p ode dt h ht ih =>
    have w := ih.outcome ht (integrate_outcome integ o t p ode dt)
    have hsh : (Orb.integrate integ o t p ode dt).2.shape = o.shape := by
      have := integrate_outcome integ o t p ode dt
      revert this
      generalize (Orb.integrate integ o t p ode dt).1 = r
      generalize (Orb.integrate integ o t p ode dt).2 = o'
      intro hh
      cases hh with
      | continued d => cases d <;> rfl
      | _ => rfl
    unfold bruteSOS
    revert w hsh
    generalize Orb.integrate integ o t p ode dt = ro'
    obtain ⟨r, o'⟩ := ro'
    intro w hsh
    cases r with
    | error e => exact w
    | ok u =>
      simp only at w hsh ⊢
      cases ht : o'.t with
      | none => exact w
      | some st =>
        cases st with
        | indiv rs => exact w
        | shared ts =>
          cases hx : o'.orbit with
          | none => exact w
          | some xs =>
            simp only
            cases h1 : take ts cols with
            | error e => exact w
            | ok ts' =>
              cases h2 : xs.mapM (take · cols) with
              | error e => exact w
              | ok xs' =>
                refine ⟨w.vxvv, ?_, fun _ _ => ⟨_, rfl⟩, ?_, w.name⟩
                · intro ys hy
                  cases hy
                  rw [← (mapM_ok.1 h2).length_eq]
                  exact w.orbit xs hx
                · intro rs hrs
                  cases hrs
                  rw [List.length_replicate, hsh]
  | @flipInplace o rev h ih =>
    refine ⟨?_, ?_, ?_, ih.indiv, ih.name⟩
    · simp only [Orb.flipInplace, List.length_map]
      exact ih.vxvv
    · intro xs hx
      obtain ⟨ys, hy, rfl⟩ := Option.map_eq_some_iff.1 hx
      rw [List.length_map]
      exact ih.orbit ys hy
    · intro xs hx
      obtain ⟨ys, hy, rfl⟩ := Option.map_eq_some_iff.1 hx
      exact ih.t ys hy
  | @flip o rev h ih =>
    refine ⟨?_, fun _ hx => (by cases hx), fun _ hx => (by cases hx), fun _ hx => (by cases hx),
      fun _ hx => (by cases hx)⟩
    simp only [Orb.flip, Orb.new, List.length_map]
    exact ih.vxvv

end Verif.Orb

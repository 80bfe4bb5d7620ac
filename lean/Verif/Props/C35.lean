import Verif.Lemmas.Orbit
import Mathlib.Data.List.Sort
import Mathlib.Tactic.NormNum

set_option autoImplicit false

/-!
# C35: indexing an orbit object

`view o J` is what a user sees of the orbit at multi-index `J`: its initial condition, its trajectory, its
times and its name. The theorems hold for every reachable object (`Reach`), hence after any history of
operations, and for every tuple of integers and slices and every list of integers or booleans.
-/

noncomputable section
namespace Verif
open Orb Spec

variable {S P : Type}

/-- One orbit of an object. -/
@[ext] structure OrbitView (S : Type) where
  init : S
  traj : Option (List S)
  times : Option (List ℝ)
  name : Option String

/-- The times of one orbit. -/
def timesAt : Option Times → Nat → Option (List ℝ)
  | none, _ => none
  | some (.shared ts), _ => some ts
  | some (.indiv rows), m => rows[m]?

/-- The orbit at a multi-index, `none` outside the shape. -/
def view (o : Orbit S P) (J : List Nat) : Option (OrbitView S) :=
  (place o.shape J).bind fun m => (o.vxvv[m]?).map fun v =>
    ⟨v, o.orbit.bind (·[m]?), o.orbit.bind fun _ => timesAt o.t m, o.name.bind (·[m]?)⟩

/-- A valid index expression for a shape. -/
def ValidBasic : List Nat → List AxisKey → Prop
  | _, [] => True
  | [], _ :: _ => False
  | n :: rest, .int k :: ks => (∃ p, IsPos n k p) ∧ ValidBasic rest ks
  | _ :: rest, .slice _ _ c :: ks => c ≠ some 0 ∧ ValidBasic rest ks

/-- A valid index expression for a shape. -/
def ValidKey (sh : List Nat) : Key → Prop
  | .basic ks => ValidBasic sh ks
  | .fancy ks => ∃ n rest, sh = n :: rest ∧ ∀ k ∈ ks, ∃ p, IsPos n k p
  | .mask bs => ∃ rest, sh = bs.length :: rest

namespace C35aux

theorem basicIdx_valid : ∀ {sh : List Nat} {ks : List AxisKey},
    (∃ r, basicIdx sh ks = .ok r) ↔ ValidBasic sh ks
  | sh, [] => by
    cases sh <;> simp [basicIdx, ValidBasic]
  | [], _ :: _ => by simp [basicIdx, ValidBasic]
  | n :: rest, .int k :: ks => by
    rw [ValidBasic, ← basicIdx_valid]
    simp only [basicIdx]
    cases hp : pos n k with
    | none =>
      have := (pos_none _ _).1 hp
      simp [this]
    | some p =>
      have hp' := (pos_iff _ _ _).1 hp
      cases hb : basicIdx rest ks with
      | error e => simp
      | ok r => simp only [Except.ok.injEq, exists_eq', and_true, true_iff]; exact ⟨p, hp'⟩
  | n :: rest, .slice a b c :: ks => by
    rw [ValidBasic, ← basicIdx_valid]
    simp only [basicIdx]
    cases hp : sliceRows n a b c with
    | none =>
      have := sliceRows_none.1 hp
      simp [this]
    | some rs =>
      have hc : c ≠ some 0 := fun h => by rw [sliceRows_none.2 h] at hp; cases hp
      cases hb : basicIdx rest ks with
      | error e => simp
      | ok r => simp [hc]

theorem pairwise_unique {r : Nat → Nat → Prop} (hirr : ∀ a, ¬ r a a) (hasym : ∀ a b, r a b → ¬ r b a)
    {xs ys : List Nat} (hx : xs.Pairwise r) (hy : ys.Pairwise r) (h : ∀ i, i ∈ xs ↔ i ∈ ys) : xs = ys := by
  have hnx : xs.Nodup := hx.imp fun {a b} hab => by rintro rfl; exact hirr _ hab
  have hny : ys.Nodup := hy.imp fun {a b} hab => by rintro rfl; exact hirr _ hab
  have hp : xs.Perm ys := (List.perm_ext_iff_of_nodup hnx hny).2 h
  exact hp.eq_of_pairwise (fun a b _ _ hab hba => absurd hba (hasym a b hab)) hx hy

theorem isSlice_unique {n : Nat} {a b c : Option Int} {rs rs' : List Nat} (h : IsSlice n a b c rs)
    (h' : IsSlice n a b c rs') : rs = rs' := by
  rcases h with ⟨h1, h2, h3⟩ | ⟨h1, h2, h3⟩ <;> rcases h' with ⟨k1, k2, k3⟩ | ⟨k1, k2, k3⟩
  · exact pairwise_unique (fun a => lt_irrefl a) (fun a b => lt_asymm) h2 k2
      fun i => (h3 i).trans (k3 i).symm
  · omega
  · omega
  · exact pairwise_unique (r := (· > ·)) (fun a => lt_irrefl a) (fun a b => lt_asymm) h2 k2
      fun i => (h3 i).trans (k3 i).symm

theorem isPos_unique {n : Nat} {k : Int} {p p' : Nat} (h : IsPos n k p) (h' : IsPos n k p') : p = p' := by
  unfold IsPos at h h'
  omega

theorem denotes_unique : ∀ {sh : List Nat} {ks : List AxisKey} {J I I' : List Nat}, Denotes sh ks J I →
    Denotes sh ks J I' → I = I' := by
  intro sh ks J I I' h
  induction h generalizing I' with
  | nil => intro h'; cases h'; rfl
  | int hp h ih =>
    intro h'
    cases h' with
    | int hp' h' => rw [isPos_unique hp hp', ih h']
  | slice hs hr h ih =>
    intro h'
    cases h' with
    | slice hs' hr' h' =>
      have := isSlice_unique hs hs'
      subst this
      rw [hr] at hr'
      cases hr'
      rw [ih h']

theorem denotes_place : ∀ {sh : List Nat} {ks : List AxisKey} {J I : List Nat}, Denotes sh ks J I →
    ∀ {flat sh' : List Nat}, basicIdx sh ks = .ok (flat, sh') → ∀ {q : Nat}, place sh I = some q →
      ∃ m, place sh' J = some m := by
  intro sh ks J I h
  induction h with
  | nil sh J =>
    intro flat sh' hb q hq
    have : (flat, sh') = (List.range sh.prod, sh) := by
      cases sh <;> (simp only [basicIdx] at hb; cases hb; rfl)
    cases this
    exact ⟨q, hq⟩
  | @int n p rest J I k ks hp h ih =>
    intro flat sh' hb q hq
    simp only [basicIdx, (pos_iff _ _ _).2 hp] at hb
    simp only [place, hp.1, if_true] at hq
    obtain ⟨q', hq', _⟩ := Option.map_eq_some_iff.1 hq
    cases hb' : basicIdx rest ks with
    | error e => rw [hb'] at hb; cases hb
    | ok r =>
      rw [hb'] at hb
      cases hb
      exact ih hb' hq'
  | @slice n j r rest J I rs a b c ks hs hr h ih =>
    intro flat sh' hb q hq
    simp only [basicIdx] at hb
    cases hp : sliceRows n a b c with
    | none => rw [hp] at hb; cases hb
    | some rs' =>
      have := isSlice_unique hs (sliceRows_some hp)
      subst this
      rw [hp] at hb
      have hlt := isSlice_lt hs (List.mem_of_getElem? hr)
      simp only [place, hlt, if_true] at hq
      obtain ⟨q', hq', _⟩ := Option.map_eq_some_iff.1 hq
      cases hb' : basicIdx rest ks with
      | error e => rw [hb'] at hb; cases hb
      | ok s =>
        rw [hb'] at hb
        cases hb
        obtain ⟨m, hm⟩ := ih hb' hq'
        refine ⟨j * s.2.prod + m, ?_⟩
        simp only [place]
        rw [if_pos (List.getElem?_eq_some_iff.1 hr).1, hm]
        rfl

/-- The entry at place `m` of the selection is the entry at place `flat[m]` of the original. -/
theorem view_of_flat {o o' : Orbit S P} (w : WF o) {key : Key} (h : getItem o key = .ok o') {J I : List Nat}
    {m q : Nat} {flat : List Nat} (hf : indxArray o.shape key = .ok (flat, o'.shape))
    (hJ : place o'.shape J = some m) (hI : place o.shape I = some q) (hm : flat[m]? = some q) :
    view o' J = view o I ∧ (view o I).isSome := by
  obtain ⟨flat', vs, t, xs, p, nm, h1, h2, h3, h4, h5⟩ := getItem_ok h
  rw [hf] at h1
  cases h1
  have hv := take_get h2 hm
  have hvx : o'.vxvv = vs := by rw [h5]
  have htt : o'.t = t := by rw [h5]
  have hxx : o'.orbit = xs := by rw [h5]
  have hnn : o'.name = nm := by rw [h5]
  constructor
  · unfold view
    rw [hJ, hI]
    simp only [Option.bind_some, hvx, htt, hxx, hnn, hv.1]
    cases o.vxvv[q]? with
    | none => rfl
    | some v =>
      simp only [Option.map_some, Option.some.injEq]
      have e1 : xs.bind (·[m]?) = o.orbit.bind (·[q]?) ∧
          (xs.bind fun _ => timesAt t m) = o.orbit.bind fun _ => timesAt o.t q := by
        rcases takeIntegration_ok h3 with ⟨ho, ht, hx, _⟩ | ⟨ys, zs, ho, hx, _, hk, ht⟩
        · rw [ho, hx]; exact ⟨rfl, rfl⟩
        · rw [ho, hx]
          refine ⟨(take_get hk hm).1, ?_⟩
          rcases takeTimes_ok ht with ⟨ts, ht1, ht2⟩ | ⟨rs, rs', ht1, ht2, hk2⟩
          · rw [ht1, ht2]; rfl
          · rw [ht1, ht2]
            exact (take_get hk2 hm).1
      have e2 : nm.bind (·[m]?) = o.name.bind (·[q]?) := by
        rcases takeName_ok h4 with ⟨ho, hn⟩ | ⟨ns, ns', ho, hn, hk⟩
        · rw [ho, hn]; rfl
        · rw [ho, hn]
          exact (take_get hk hm).1
      rw [e1.1, e1.2, e2]
  · unfold view
    rw [hI]
    simp only [Option.bind_some, Option.isSome_map]
    exact hv.2

theorem mask_rows (bs : List Bool) :
    ((List.range bs.length).filter fun i => bs[i]? = some true).Pairwise (· < ·) ∧
    ∀ i, i ∈ ((List.range bs.length).filter fun i => bs[i]? = some true) ↔ bs[i]? = some true := by
  refine ⟨List.pairwise_lt_range.filter _, ?_⟩
  intro i
  simp only [List.mem_filter, List.mem_range, decide_eq_true_eq, and_iff_right_iff_imp]
  intro h
  exact (List.getElem?_eq_some_iff.1 h).1

theorem adv_view {o o' : Orbit S P} (w : WF o) {key : Key} {n : Nat} {rest rs : List Nat}
    (hsh : o.shape = n :: rest) (hr : advRows n key = some rs)
    (hk : indxArray o.shape key = advIdx key o.shape) (h : getItem o key = .ok o') :
    o'.shape = rs.length :: rest ∧ ∀ j r J, rs[j]? = some r →
      view o' (j :: J) = view o (r :: J) := by
  obtain ⟨flat, _, _, _, _, _, h1, _⟩ := getItem_ok h
  have hf := h1
  rw [hk, hsh] at h1
  simp only [advIdx, hr] at h1
  have hshape : o'.shape = rs.length :: rest :=
    (congrArg Prod.snd (Except.ok.inj h1)).symm
  refine ⟨hshape, ?_⟩
  intro j r J hj
  have hlt := advRows_lt hr
  have hjlt := (List.getElem?_eq_some_iff.1 hj).1
  have hrlt := hlt r (List.mem_of_getElem? hj)
  cases hp : place rest J with
  | none =>
    have e1 : place o'.shape (j :: J) = none := by rw [hshape]; simp [place, hp]
    have e2 : place o.shape (r :: J) = none := by rw [hsh]; simp [place, hp]
    unfold view
    rw [e1, e2]
    rfl
  | some q =>
    have e1 : place o'.shape (j :: J) = some (j * rest.prod + q) := by
      rw [hshape]; simp [place, hp, hjlt]
    rw [hshape] at e1
    obtain ⟨j', J', r', q', hJ, hr', hp', hget⟩ := advIdx_place hlt e1
    cases hJ
    rw [hj] at hr'
    cases hr'
    refine (view_of_flat w h hf (by rw [hshape]; exact e1) (by rw [hsh]; exact hp') ?_).1
    rw [hshape] at h1
    cases h1
    exact hget

theorem runAll_shared {integ : P → S → List ℝ → Except Err (List S)} {p : P} {ts : List ℝ} {vs : List S}
    {out : List (List S)} : runAll integ p (.shared ts) vs = .ok out ↔
      List.Forall₂ (fun v x => integ p v ts = .ok x) vs out := by
  have : runAll integ p (.shared ts) vs = vs.mapM (fun v => integ p v ts) := by
    unfold runAll
    simp only [Times.forOrbit]
    suffices h : ∀ k, (vs.zipIdx k).mapM (fun x : S × Nat => integ p x.1 ts) = vs.mapM (fun v => integ p v ts)
      from h 0
    induction vs with
    | nil => intro k; rfl
    | cons v vs ih =>
      intro k
      rw [List.zipIdx_cons, List.mapM_cons, List.mapM_cons, ih]
  rw [this, mapM_ok]

theorem take_forall₂ {α β : Type} {r : α → β → Prop} {xs : List α} {ys : List β} (h : List.Forall₂ r xs ys)
    {is : List Nat} {xs' : List α} {ys' : List β} (hx : take xs is = .ok xs') (hy : take ys is = .ok ys') :
    List.Forall₂ r xs' ys' := by
  have hx' := take_ok.1 hx
  have hy' := take_ok.1 hy
  clear hx hy
  induction is generalizing xs' ys' with
  | nil => cases hx'; cases hy'; exact .nil
  | cons i is ih =>
    cases hx' with
    | cons h1 h2 =>
      cases hy' with
      | cons k1 k2 =>
        refine .cons ?_ (ih h2 k2)
        obtain ⟨hi, he⟩ := List.getElem?_eq_some_iff.1 h1
        obtain ⟨hi', he'⟩ := List.getElem?_eq_some_iff.1 k1
        have := h.get hi hi'
        simp only [List.get_eq_getElem, he, he'] at this
        exact this

end C35aux

open C35aux

/-- Indexing succeeds exactly for the valid index expressions. -/
theorem C35_succeeds {o : Orbit S P} (h : Reach o) (key : Key) :
    (∃ o', getItem o key = .ok o') ↔ ValidKey o.shape key := by
  have e : (∃ o', getItem o key = .ok o') ↔ ∃ r, indxArray o.shape key = .ok r := by
    constructor
    · rintro ⟨o', ho'⟩
      obtain ⟨flat, _, _, _, _, _, h1, _⟩ := getItem_ok ho'
      exact ⟨_, h1⟩
    · rintro ⟨⟨flat, sh⟩, hr⟩
      exact getItem_total h.wf hr
  rw [e]
  cases key with
  | basic ks => exact basicIdx_valid
  | fancy ks =>
    simp only [indxArray, ValidKey]
    cases hs : o.shape with
    | nil => simp [advIdx]
    | cons n rest =>
      simp only [advIdx, List.cons.injEq]
      cases hr : advRows n (.fancy ks) with
      | none =>
        simp only [reduceCtorEq, exists_false, false_iff]
        rintro ⟨n', rest', ⟨rfl, rfl⟩, hk⟩
        simp only [advRows] at hr
        have : ∃ ps, ks.mapM (pos n) = some ps := by
          clear hr hs e
          induction ks with
          | nil => exact ⟨[], rfl⟩
          | cons k ks ih =>
            obtain ⟨ps, hps⟩ := ih fun k hk' => hk k (by simp [hk'])
            obtain ⟨p, hp⟩ := hk k (by simp)
            refine ⟨p :: ps, mapM_some.2 (.cons ((pos_iff _ _ _).2 hp) (mapM_some.1 hps))⟩
        obtain ⟨ps, hps⟩ := this
        rw [hps] at hr
        cases hr
      | some rs =>
        simp only [Except.ok.injEq, exists_eq', true_iff]
        refine ⟨n, rest, ⟨rfl, rfl⟩, ?_⟩
        intro k hk
        simp only [advRows] at hr
        obtain ⟨i, hi, rfl⟩ := List.getElem_of_mem hk
        have hf := mapM_some.1 hr
        have := hf.get (i := i) hi (by have := hf.length_eq; omega)
        exact ⟨_, (pos_iff _ _ _).1 this⟩
  | mask bs =>
    simp only [indxArray, ValidKey]
    cases hs : o.shape with
    | nil => simp [advIdx]
    | cons n rest =>
      simp only [advIdx, advRows, List.cons.injEq]
      by_cases hb : bs.length = n
      · simp [hb]
      · have hb' : ¬ n = bs.length := fun h => hb h.symm
        simp [hb, hb']

/-- A tuple of integers and slices: the orbits of the result are exactly the orbits denoted by the index
expression, each with its own initial condition, trajectory, times and name. -/
theorem C35_basic {o o' : Orbit S P} (h : Reach o) {ks : List AxisKey}
    (hk : getItem o (.basic ks) = .ok o') :
    (∀ J, (view o' J).isSome → ∃ I, Denotes o.shape ks J I ∧ view o' J = view o I) ∧
    (∀ I J, Denotes o.shape ks J I → (view o I).isSome → view o' J = view o I) := by
  obtain ⟨flat, _, _, _, _, _, h1, _⟩ := getItem_ok hk
  have hb : basicIdx o.shape ks = .ok (flat, o'.shape) := h1
  have hvp : ∀ {o : Orbit S P} {J : List Nat}, (view o J).isSome → ∃ m, place o.shape J = some m := by
    intro o J hJ
    unfold view at hJ
    cases hp : place o.shape J with
    | none => rw [hp] at hJ; cases hJ
    | some m => exact ⟨m, rfl⟩
  constructor
  · intro J hJ
    obtain ⟨m, hm⟩ := hvp hJ
    obtain ⟨I, q, hd, hq, hf⟩ := basicIdx_place hb hm
    exact ⟨I, hd, (view_of_flat h.wf hk h1 hm hq hf).1⟩
  · intro I J hd hI
    obtain ⟨q, hq⟩ := hvp hI
    obtain ⟨m, hm⟩ := denotes_place hd hb hq
    obtain ⟨I', q', hd', hq', hf⟩ := basicIdx_place hb hm
    cases denotes_unique hd hd'
    exact (view_of_flat h.wf hk h1 hm hq' hf).1

/-- A list of integers. -/
theorem C35_fancy {o o' : Orbit S P} (h : Reach o) {n : Nat} {rest : List Nat} {ks : List Int}
    (hsh : o.shape = n :: rest) (hk : getItem o (.fancy ks) = .ok o') :
    o'.shape = ks.length :: rest ∧ ∀ j k J, ks[j]? = some k →
      ∃ p, IsPos n k p ∧ view o' (j :: J) = view o (p :: J) := by
  obtain ⟨n', rest', hsh', hv⟩ := (C35_succeeds h (.fancy ks)).1 ⟨o', hk⟩
  rw [hsh] at hsh'
  cases hsh'
  have hr : ∃ rs, advRows n (.fancy ks) = some rs := by
    obtain ⟨flat, _, _, _, _, _, h1, _⟩ := getItem_ok hk
    simp only [indxArray, hsh, advIdx] at h1
    cases hr : advRows n (.fancy ks) with
    | none => rw [hr] at h1; cases h1
    | some rs => exact ⟨rs, rfl⟩
  obtain ⟨rs, hr⟩ := hr
  have hf := mapM_some.1 hr
  obtain ⟨h1, h2⟩ := adv_view h.wf hsh hr rfl hk
  refine ⟨by rw [h1, hf.length_eq], ?_⟩
  intro j k J hj
  obtain ⟨hj1, hj2⟩ := List.getElem?_eq_some_iff.1 hj
  have hj3 : j < rs.length := by rw [← hf.length_eq]; exact hj1
  have := hf.get (i := j) hj1 hj3
  simp only [List.get_eq_getElem, hj2] at this
  exact ⟨rs[j], (pos_iff _ _ _).1 this, h2 j rs[j] J (List.getElem?_eq_getElem hj3)⟩

/-- A list of booleans selects the orbits at which it is true, in order. -/
theorem C35_mask {o o' : Orbit S P} (h : Reach o) {n : Nat} {rest : List Nat} {bs : List Bool}
    (hsh : o.shape = n :: rest) (hk : getItem o (.mask bs) = .ok o') :
    ∃ rs : List Nat, rs.Pairwise (· < ·) ∧ (∀ i, i ∈ rs ↔ bs[i]? = some true) ∧
      o'.shape = rs.length :: rest ∧ ∀ j r J, rs[j]? = some r → view o' (j :: J) = view o (r :: J) := by
  obtain ⟨rest', hsh'⟩ := (C35_succeeds h (.mask bs)).1 ⟨o', hk⟩
  rw [hsh] at hsh'
  cases hsh'
  have hr : advRows bs.length (.mask bs) =
      some ((List.range bs.length).filter fun i => bs[i]? = some true) := by simp [advRows]
  obtain ⟨h1, h2⟩ := adv_view h.wf hsh hr rfl hk
  exact ⟨_, (mask_rows bs).1, (mask_rows bs).2, h1, h2⟩

/-- Selecting and then integrating is the same as integrating and then selecting, for an orbit that has
not been integrated yet. -/
theorem C35_integrate (integ : P → S → List ℝ → Except Err (List S)) {o o' o1 : Orbit S P} (h : Reach o)
    (ht : o.t = none) {key : Key} {ts : List ℝ} {p : P} {ode : Bool} {dt : Option ℝ}
    (hi : integrate integ o (.shared ts) p ode dt = (.ok (), o1)) (hk : getItem o key = .ok o') :
    ∃ o2 o3, integrate integ o' (.shared ts) p ode dt = (.ok (), o2) ∧ getItem o1 key = .ok o3 ∧
      o2.shape = o3.shape ∧ ∀ J, view o2 J = view o3 J := by
  have hout := integrate_outcome integ o (.shared ts) p ode dt
  rw [hi] at hout
  simp only at hout
  have ho1 : ∃ out, checkTimes o (.shared ts) ode dt = .ok () ∧
      runAll integ p (.shared ts) o.vxvv = .ok out ∧
      o1 = { o with t := some (.shared ts), pot := some p, origPot := some p, orbit := some out } := by
    generalize hr : (Except.ok () : Except Err Unit) = r at hout
    cases hout with
    | refused => cases hr
    | restartRaised => cases hr
    | restarted out hc hs h => exact ⟨out, hc, h, rfl⟩
    | continueRaised => cases hr
    | continued d new old xs starts out hc ht' hd hold =>
      rw [ht] at hold
      cases hold
  obtain ⟨out, hc, hrun, rfl⟩ := ho1
  have hr1 : Reach (integrate integ o (.shared ts) p ode dt).2 := Reach.integrate integ _ p ode dt h trivial
  rw [hi] at hr1
  have hval := (C35_succeeds h key).1 ⟨o', hk⟩
  obtain ⟨o3, ho3⟩ := (C35_succeeds hr1 key).2 hval
  obtain ⟨flat, vs, t, xs, q, nm, h1, h2, h3, h4, h5⟩ := getItem_ok hk
  obtain ⟨flat3, vs3, t3, xs3, q3, nm3, k1, k2, k3, k4, k5⟩ := getItem_ok ho3
  simp only at k1 k2
  rw [h1] at k1
  have hk1 : flat = flat3 ∧ o'.shape = o3.shape := by
    simpa using k1
  obtain ⟨hfl, hshape⟩ := hk1
  subst hfl
  rw [h2] at k2
  cases k2
  have hname : nm = nm3 := by
    have : takeName o flat = .ok nm3 := k4
    rw [h4] at this
    cases this
    rfl
  subst hname
  rcases takeIntegration_ok k3 with ⟨ho, _⟩ | ⟨ys, zs, ho, hx3, _, hk3, ht3⟩
  · cases ho
  cases ho
  have ho't : o'.t = none := by
    rcases takeIntegration_ok h3 with ⟨_, ht', _, _⟩ | ⟨ys', zs', ho', _, _, _, ht'⟩
    · rw [h5]; exact ht'
    · rw [ht] at ht'; cases ht'
  have hvx : o'.vxvv = vs := by rw [h5]
  have hrun' : runAll integ p (.shared ts) o'.vxvv = .ok zs := by
    rw [hvx, runAll_shared]
    exact take_forall₂ (runAll_shared.1 hrun) h2 hk3
  have hc' : checkTimes o' (.shared ts) ode dt = .ok () := hc
  have hs' : shouldContinue o' (.shared ts) = .ok none := by
    unfold shouldContinue
    rw [ho't]
    split <;> rfl
  refine ⟨{ o' with t := some (.shared ts), pot := some p, origPot := some p, orbit := some zs }, o3, ?_, ho3,
    hshape, ?_⟩
  · unfold integrate
    simp only [hc', TArg.times, hs', begin, hrun', merge]
  · intro J
    have e1 : o3.vxvv = o'.vxvv := by rw [k5, hvx]
    have e2 : o3.orbit = some zs := by rw [k5]; exact hx3
    have e3 : o3.t = some (.shared ts) := by
      rcases takeTimes_ok ht3 with ⟨ts', ht1, ht2⟩ | ⟨rs, rs', ht1, ht2, _⟩
      · cases ht1; rw [k5]; exact ht2
      · cases ht1
    have e4 : o3.name = o'.name := by rw [k5, h5]
    unfold view
    simp only [hshape, e1, e2, e3, e4]

/-- The scale that applies to an orbit. -/
def scaleAt (s : Scale) (m : Nat) : Option ℝ :=
  match s with
  | .one x => some x
  | .each xs => xs[m]?

/-- "Everything stored" does not include the unit scales: with one distance scale per orbit, the object
`o[1]` converts its only orbit with the scale of `o[0]` (and still holds both). -/
theorem C35_scales_fails : ∃ (o o' : Orbit (ℝ × ℝ) Unit), Reach o ∧
    getItem o (.basic [.int 1]) = .ok o' ∧ view o' [] = view o [1] ∧
    scaleAt o'.ro 0 = some 8 ∧ scaleAt o.ro 1 = some 7 := by
  refine ⟨Orb.new [2] [(1, 0), (2, 0)] (.each [8, 7]) (.one 220) true true,
    Orb.new [] [(2, 0)] (.each [8, 7]) (.one 220) true true, Reach.new rfl, rfl, rfl, rfl, rfl⟩

/-- Two rows of three orbits, `o[-1, ::-2]`: the orbits `(1,2)` and `(1,0)`. -/
example : ∃ o' : Orbit Nat Unit, getItem (Orb.new [2, 3] [10, 11, 12, 13, 14, 15] (.one 8) (.one 220) true true)
    (.basic [.int (-1), .slice none none (some (-2))]) = .ok o' ∧ o'.shape = [2] ∧ o'.vxvv = [15, 13] :=
  ⟨Orb.new [2] [15, 13] (.one 8) (.one 220) true true, rfl, rfl, rfl⟩

/-- An integrated object, a mask. -/
example : ∃ o1 o' : Orbit ℝ Unit,
    integrate (fun _ v ts => .ok (ts.map (v + ·))) (Orb.new [3] [10, 11, 12] (.one 8) (.one 220) true true)
      (.shared [0, 1]) () true none = (.ok (), o1) ∧
    getItem o1 (.mask [true, false, true]) = .ok o' ∧ o'.orbit = some [[10 + 0, 10 + 1], [12 + 0, 12 + 1]] :=
  ⟨_, _, rfl, rfl, rfl⟩

end Verif

import Verif.Lemmas.DynFric
import Verif.Props.C75

set_option autoImplicit false

/-!
# C76: dynamical friction

The force is antiparallel to the velocity with the documented coefficient and takes energy out of an orbit; setters act as if
the object had been made with the new value; the C version agrees; the C Jacobian is the Jacobian of the force.
-/

noncomputable section
namespace Verif
open Real Spec DynFric Filter Set Coords
open scoped Topology

/-- The documented coefficient: `4π G M ρ lnΛ [erf X - 2X/√π exp(-X²)] / v³`. -/
def C76Spec.drag (GM ρ lnΛ X v : ℝ) : ℝ := 4 * π * GM * ρ * lnΛ * (erf X - 2 * X / √π * exp (-X ^ 2)) / v ^ 3

/-- The documented Coulomb logarithm `½ ln(1 + Λ²)` with `Λ = (r/γ) / max(r_hm, GM/v²)`, or a positive constant. -/
def C76Spec.lnΛ (const GM γ rhm r v : ℝ) : ℝ :=
  if const ≠ 0 then const else log (1 + (r / γ / max rhm (GM / v ^ 2)) ^ 2) / 2

open C76Spec

/-- The velocity vector is not zero. -/
def C76Spec.Moving (v : Vec) : Prop := 0 < v 0 ^ 2 + v 1 ^ 2 + v 2 ^ 2

namespace C76aux

theorem lnLambda_eq (interp : (ℝ → ℝ) → ℝ → ℝ) {a : Args} (ha : a.amp ≠ 0) (r v : ℝ) :
    (init interp a).lnLambda r v = lnΛ a.lnL a.GMs a.gamma a.rhm r v := by
  have hms : (init interp a).ms = a.GMs := by simp only [init]; field_simp
  simp only [Obj.lnLambda, lnΛ, hms]
  have h1 : (init interp a).lnL = a.lnL := rfl
  have h2 : (init interp a).rhm = a.rhm := rfl
  have h3 : (init interp a).gamma = a.gamma := rfl
  rw [h1, h2, h3]
  split_ifs with h k
  · rfl
  · rw [max_eq_left k.le]; ring
  · rw [max_eq_right (not_lt.1 k)]; ring

theorem lnΛ_nonneg {c GM γ rhm r v : ℝ} (hc : 0 ≤ c) : 0 ≤ lnΛ c GM γ rhm r v := by
  unfold lnΛ
  split_ifs
  · exact hc
  · exact div_nonneg (log_nonneg (by nlinarith [sq_nonneg (r / γ / max rhm (GM / v ^ 2))])) two_pos.le

theorem lnΛ_pos {c GM γ rhm r v : ℝ} (hc : 0 ≤ c) (hG : 0 < GM) (hg : 0 < γ) (hr : 0 < r) (hv : 0 < v) :
    0 < lnΛ c GM γ rhm r v := by
  unfold lnΛ
  split_ifs with h
  · exact lt_of_le_of_ne hc (Ne.symm h)
  · have hm : 0 < max rhm (GM / v ^ 2) := lt_max_of_lt_right (by positivity)
    have : 0 < (r / γ / max rhm (GM / v ^ 2)) ^ 2 := by positivity
    exact div_pos (log_pos (by linarith)) two_pos

theorem call_eq (o : Obj) (ho : o.hash = none) (m : Method) (R z φ t : ℝ) (v : Vec) :
    (o.call m R z φ t v).2 = o.amp * (o.calc R z φ t v * m.fac R v) := by
  simp only [Obj.call, Obj.callWith, ho]
  rw [if_neg (by simp)]

end C76aux

open C76aux

/-- Outside `minr` the three components of the force on a moving body are minus a coefficient times the velocity, the
coefficient is the documented one and is not negative, and it is positive where the background density is. The power of the
force is minus the coefficient times the squared speed, so friction never adds kinetic energy. -/
theorem C76_drag (interp : (ℝ → ℝ) → ℝ → ℝ) {a : Args} (ha : 0 < a.amp) (hG : 0 < a.GMs) (hg : 0 < a.gamma) (hL : 0 ≤ a.lnL)
    {R z φ t : ℝ} {v : Vec} (hR : 0 < R) (hr : a.minr ≤ √(R ^ 2 + z ^ 2)) (hv : Moving v)
    (hσ : 0 < (init interp a).sr (√(R ^ 2 + z ^ 2))) (hρ : 0 ≤ (init interp a).densPot.dens R z φ t) :
    let o := init interp a;
    let r := √(R ^ 2 + z ^ 2);
    let k := a.amp * drag a.GMs (o.densPot.dens R z φ t) (lnΛ a.lnL a.GMs a.gamma a.rhm r (speed v))
      (speed v / (√2 * o.sr r)) (speed v);
    ((o.call .Rforce R z φ t v).2 = -k * v 0 ∧ (o.call .phitorque R z φ t v).2 / R = -k * v 1
      ∧ (o.call .zforce R z φ t v).2 = -k * v 2)
    ∧ 0 ≤ k ∧ (0 < o.densPot.dens R z φ t → 0 < k)
    ∧ v 0 * (o.call .Rforce R z φ t v).2 + v 1 * ((o.call .phitorque R z φ t v).2 / R) + v 2 * (o.call .zforce R z φ t v).2
      = -k * speed v ^ 2 ∧ -k * speed v ^ 2 ≤ 0 := by
  intro o r k
  have hv0 : 0 < speed v := sqrt_pos.2 hv
  have hr0 : 0 < r := sqrt_pos.2 (by positivity)
  have h2 : (0 : ℝ) < √2 := sqrt_pos.2 two_pos
  have hX : 0 < speed v / (√2 * o.sr r) := div_pos hv0 (mul_pos h2 hσ)
  have hE : 0 < erfFac (speed v / (√2 * o.sr r)) := erfFac_pos hX
  have hEe : erf (speed v / (√2 * o.sr r)) - 2 * (speed v / (√2 * o.sr r)) / √π * exp (-(speed v / (√2 * o.sr r)) ^ 2)
      = erfFac (speed v / (√2 * o.sr r)) := by rw [erfFac]; ring
  have hLp : 0 < lnΛ a.lnL a.GMs a.gamma a.rhm r (speed v) := lnΛ_pos hL hG hg hr0 hv0
  have hk : o.amp * o.calc R z φ t v = -k := by
    simp only [Obj.calc]
    rw [if_neg (not_lt.2 (show o.minr ≤ √(R ^ 2 + z ^ 2) from hr)), Obj.Xfactor_eq, lnLambda_eq interp ha.ne']
    simp only [k, drag, hEe]
    rw [show o.amp = a.amp * a.GMs * (4 * π) from rfl]
    ring
  have hpi := pi_pos
  have hk0 : 0 ≤ k := by
    simp only [k, drag, hEe]
    have : 0 ≤ o.densPot.dens R z φ t := hρ
    positivity
  have eR : (o.call .Rforce R z φ t v).2 = -k * v 0 := by
    rw [call_eq o rfl, ← hk]; simp only [Method.fac]; ring
  have eT : (o.call .phitorque R z φ t v).2 / R = -k * v 1 := by
    rw [call_eq o rfl, ← hk]; simp only [Method.fac]; field_simp
  have ez : (o.call .zforce R z φ t v).2 = -k * v 2 := by
    rw [call_eq o rfl, ← hk]; simp only [Method.fac]; ring
  refine ⟨⟨eR, eT, ez⟩, hk0, fun h => ?_, ?_, ?_⟩
  · simp only [k, drag, hEe]
    have : 0 < o.densPot.dens R z φ t := h
    positivity
  · rw [eR, eT, ez, speed, sq_sqrt hv.le]
    ring
  · nlinarith [sq_nonneg (speed v)]

/-- Inside `minr` there is no force. -/
theorem C76_inside (interp : (ℝ → ℝ) → ℝ → ℝ) (a : Args) (m : Method) {R z : ℝ} (φ t : ℝ) (v : Vec)
    (hr : √(R ^ 2 + z ^ 2) < a.minr) : ((init interp a).call m R z φ t v).2 = 0 := by
  rw [call_eq _ rfl]
  simp only [Obj.calc]
  rw [if_pos (show √(R ^ 2 + z ^ 2) < (init interp a).minr from hr)]
  ring

/-! ### Setters and history -/

/-- What can be done with the object. -/
inductive C76Spec.Op where
  | force (m : Method) (R z φ t : ℝ) (v : Vec)
  | setGMs (g : ℝ)
  | setRhm (h : ℝ)

/-- The object after an operation, for either kind of friction. -/
def C76aux.after (cf : Obj → ℝ → ℝ → ℝ → ℝ → Vec → ℝ) (o : Obj) : Op → Obj
  | .force m R z φ t v => (o.callWith cf m R z φ t v).1
  | .setGMs g => o.setGMs g
  | .setRhm h => o.setRhm h

/-- The constructor arguments with the values assigned last. -/
def C76Spec.assign (a : Args) : Op → Args
  | .force .. => a
  | .setGMs g => { a with GMs := g }
  | .setRhm h => { a with rhm := h }

/-- A mass of zero cannot be replaced (the setter divides by it). -/
def C76Spec.Op.ok : Op → Prop
  | .setGMs g => g ≠ 0
  | _ => True

theorem C76aux.inv (interp : (ℝ → ℝ) → ℝ → ℝ) (cf : Obj → ℝ → ℝ → ℝ → ℝ → Vec → ℝ) :
    ∀ (l : List Op) {a : Args} {o : Obj}, a.amp ≠ 0 → a.GMs ≠ 0 → (∀ x ∈ l, x.ok) → { o with cached := 0 } = init interp a →
      { l.foldl (after cf) o with cached := 0 } = init interp (l.foldl assign a) := by
  intro l
  induction l with
  | nil => intro a o _ _ _ h; exact h
  | cons x l ih =>
    intro a o ha hG hok h
    have hok' : ∀ x ∈ l, x.ok := fun y hy => hok y (List.mem_cons_of_mem _ hy)
    have hx := hok x (List.mem_cons_self ..)
    simp only [List.foldl_cons]
    cases x with
    | force m R z φ t v =>
      refine ih ha hG hok' ?_
      rw [show assign a (.force m R z φ t v) = a from rfl, ← h]
      simp only [after, Obj.callWith]
      split_ifs <;> rfl
    | setGMs g =>
      refine ih (a := assign a (.setGMs g)) ha hx hok' ?_
      simp only [after, Obj.setGMs, assign]
      have h1 : o.amp = a.amp * a.GMs * (4 * π) := congrArg Obj.amp h
      have h2 : o.ms = a.amp * a.GMs / a.amp := congrArg Obj.ms h
      have e1 : o.amp * (g / o.ms) = a.amp * g * (4 * π) := by rw [h1, h2]; field_simp
      have e2 : g = a.amp * g / a.amp := by field_simp
      have : { o with cached := 0, amp := o.amp * (g / o.ms), ms := g, hash := none }
          = { ({ o with cached := 0 } : Obj) with amp := o.amp * (g / o.ms), ms := g, hash := none } := rfl
      rw [this, h, e1]
      simp only [init]
      rw [← e2]
    | setRhm r =>
      refine ih (a := assign a (.setRhm r)) ha hG hok' ?_
      simp only [after, Obj.setRhm, assign]
      have : { o with cached := 0, rhm := r, hash := none }
          = { ({ o with cached := 0 } : Obj) with rhm := r, hash := none } := rfl
      rw [this, h]
      rfl

theorem C76aux.uncached {o o' : Obj} (cf : Obj → ℝ → ℝ → ℝ → ℝ → Vec → ℝ)
    (hcf : ∀ o R z φ t v, cf { o with cached := 0 } R z φ t v = cf o R z φ t v)
    (h : { o with cached := 0 } = o') (hh : o'.hash = none) (m : Method) (R z φ t : ℝ) (v : Vec) :
    (o.callWith cf m R z φ t v).2 = (o'.callWith cf m R z φ t v).2 := by
  have h1 : o.hash = none := by rw [← hh, ← h]
  simp only [Obj.callWith, h1, hh]
  rw [if_neg (by simp), if_neg (by simp)]
  simp only
  rw [← h, hcf]

/-- After any sequence of force evaluations and of assignments of `GMs` and `rhm`, every force is the one of an object made
with the values assigned last. -/
theorem C71_Chandrasekhar (interp : (ℝ → ℝ) → ℝ → ℝ) {a : Args} (ha : a.amp ≠ 0) (hG : a.GMs ≠ 0) (l : List Op)
    (hl : ∀ x ∈ l, x.ok) (m : Method) (R z φ t : ℝ) (v : Vec) :
    ((l.foldl (after Obj.calc) (init interp a)).call m R z φ t v).2 = ((init interp (l.foldl assign a)).call m R z φ t v).2 :=
  uncached Obj.calc (fun _ _ _ _ _ _ => rfl) (inv interp Obj.calc l ha hG hl rfl) rfl m R z φ t v

/-- The same for the friction in fuzzy dark matter. -/
theorem C71_FDM (interp : (ℝ → ℝ) → ℝ → ℝ) (mhbar constF : ℝ) {a : Args} (ha : a.amp ≠ 0) (hG : a.GMs ≠ 0) (l : List Op)
    (hl : ∀ x ∈ l, x.ok) (m : Method) (R z φ t : ℝ) (v : Vec) :
    ((l.foldl (after (Obj.calcFDM mhbar constF)) (init interp a)).callFDM mhbar constF m R z φ t v).2
      = ((init interp (l.foldl assign a)).callFDM mhbar constF m R z φ t v).2 :=
  uncached _ (fun _ _ _ _ _ _ => rfl) (inv interp _ l ha hG hl rfl) rfl m R z φ t v

/-! ### Pickling -/

/-- An object that was pickled and unpickled gives the same forces, everywhere when no dispersion function was given to the
constructor, and otherwise up to `maxr`. -/
theorem C76_pickle_partial (interp : (ℝ → ℝ) → ℝ → ℝ) (a : Args) (m : Method) {R z : ℝ} (φ t : ℝ) (v : Vec)
    (h : a.sigmar = none ∨ √(R ^ 2 + z ^ 2) ≤ a.maxr) :
    ((init interp a).repickle.call m R z φ t v).2 = ((init interp a).call m R z φ t v).2 := by
  have hh : (init interp a).repickle.hash = none := by
    simp only [Obj.repickle]; split <;> rfl
  have hamp : (init interp a).repickle.amp = (init interp a).amp := by
    simp only [Obj.repickle]; split <;> rfl
  have hsr : (init interp a).repickle.sr (√(R ^ 2 + z ^ 2)) = (init interp a).sr (√(R ^ 2 + z ^ 2)) := by
    obtain ⟨amp, GMs, gamma, rhm, dens, sig, lnL, minr, maxr⟩ := a
    rcases h with h | h
    · simp only at h
      subst h
      cases dens <;> rfl
    · have hn : ¬√(R ^ 2 + z ^ 2) > maxr := not_lt.2 h
      cases dens <;> cases sig <;> simp [Obj.repickle, init, Obj.sr, hn]
  rw [call_eq _ hh, call_eq _ rfl, hamp]
  congr 2
  have e : ∀ w, (init interp a).repickle.Xfactor (√(R ^ 2 + z ^ 2)) w = (init interp a).Xfactor (√(R ^ 2 + z ^ 2)) w := by
    intro w; rw [Obj.Xfactor_eq, Obj.Xfactor_eq, hsr]
  have e2 : ∀ r w, (init interp a).repickle.lnLambda r w = (init interp a).lnLambda r w := by
    intro r w; simp only [Obj.repickle]; split <;> rfl
  have e3 : (init interp a).repickle.densPot = (init interp a).densPot := by
    simp only [Obj.repickle]; split <;> rfl
  have e4 : (init interp a).repickle.minr = (init interp a).minr := by
    simp only [Obj.repickle]; split <;> rfl
  simp only [Obj.calc, e, e2, e3, e4]

namespace C76aux

/-- Arguments of the counterexamples: a given dispersion function and constant Coulomb logarithm, radii from 1/2 to 1. -/
def wit (s : ℝ → ℝ) : Args := ⟨1, 1, 1, 0, none, some s, 1, 1 / 2, 1⟩

theorem wit_dens : 0 < defaultHalo.dens 2 0 0 0 := by
  have hpi := pi_pos
  simp only [defaultHalo, Pot.scale, LogarithmicHalo.pot, LogarithmicHalo.dens]
  positivity

theorem two_r : √((2 : ℝ) ^ 2 + 0 ^ 2) = 2 := by
  rw [show (2 : ℝ) ^ 2 + 0 ^ 2 = 2 ^ 2 by norm_num, sqrt_sq two_pos.le]

theorem wit_speed : speed ![1, 0, 0] = 1 := by simp [speed]

theorem wit_calc {o : Obj} (h1 : o.minr = 1 / 2) (h2 : o.densPot = defaultHalo) (h3 : o.lnL = 1) :
    o.calc 2 0 0 0 ![1, 0, 0] = -defaultHalo.dens 2 0 0 0 * erfFac (1 / (√2 * o.sr 2)) := by
  have : ¬(2 : ℝ) < 1 / 2 := by norm_num
  simp only [Obj.calc, two_r, h1, wit_speed, h2]
  rw [if_neg this, Obj.Xfactor_eq]
  simp [Obj.lnLambda, h3]

end C76aux

-- the hypotheses of the theorems above at a concrete point: constant dispersion, the default halo, a body on a radial orbit
example : ∃ k > 0, ((init id (wit fun _ => 1)).call .Rforce 2 0 0 0 ![1, 0, 0]).2 = -k := by
  have hσ : 0 < (init id (wit fun _ => 1)).sr (√((2 : ℝ) ^ 2 + 0 ^ 2)) := by
    have : (init id (wit fun _ => 1)).sr (√((2 : ℝ) ^ 2 + 0 ^ 2)) = 1 := by simp [Obj.sr, init, wit]
    rw [this]; exact one_pos
  have h := C76_drag id (a := wit fun _ => 1) (by norm_num [wit]) (by norm_num [wit]) (by norm_num [wit]) (by norm_num [wit])
    (R := 2) (z := 0) (φ := 0) (t := 0) (v := ![1, 0, 0]) two_pos (by rw [two_r]; norm_num [wit]) (by simp [Moving]) hσ wit_dens.le
  refine ⟨_, h.2.2.1 wit_dens, ?_⟩
  rw [h.1.1]
  simp

example : ((init id (wit fun _ => 1)).call .zforce (1 / 4) 0 0 0 ![1, 0, 1]).2 = 0 := by
  refine C76_inside id _ .zforce 0 0 _ ?_
  rw [show ((1 : ℝ) / 4) ^ 2 + 0 ^ 2 = (1 / 4) ^ 2 by norm_num, sqrt_sq (by norm_num)]
  norm_num [wit]

example : ((init id (wit fun _ => 1)).repickle.call .Rforce (3 / 4) 0 0 0 ![1, 0, 0]).2
    = ((init id (wit fun _ => 1)).call .Rforce (3 / 4) 0 0 0 ![1, 0, 0]).2 := by
  refine C76_pickle_partial id _ .Rforce 0 0 _ (Or.inr ?_)
  rw [show ((3 : ℝ) / 4) ^ 2 + 0 ^ 2 = (3 / 4) ^ 2 by norm_num, sqrt_sq (by norm_num)]
  norm_num [wit]

/-- When a dispersion function was given, unpickling replaces it by the one that `jeans.sigmar` computes, which changes the force
beyond `maxr`. -/
theorem C76_pickle_fails : ∃ (a : Args) (R z φ t : ℝ) (v : Vec), a.maxr < √(R ^ 2 + z ^ 2) ∧ a.sigmar ≠ none ∧
    ∀ interp, ((init interp a).repickle.call .Rforce R z φ t v).2 ≠ ((init interp a).call .Rforce R z φ t v).2 := by
  refine ⟨wit fun _ => 1, 2, 0, 0, 0, ![1, 0, 0], ?_, by simp [wit], fun interp => ?_⟩
  · rw [two_r]; norm_num [wit]
  have h2 : (0 : ℝ) < √2 := sqrt_pos.2 two_pos
  have hw : ∀ o : Obj, o.maxr = 1 → o.sr 2 = o.sigmarOrig 2 := fun o h => by
    simp only [Obj.sr]; rw [if_pos (by rw [h]; norm_num)]
  rw [call_eq _ rfl, call_eq _ rfl]
  have e1 : (init interp (wit fun _ => 1)).sr 2 = 1 := by rw [hw _ rfl]; rfl
  have e2 : (init interp (wit fun _ => 1)).repickle.sr 2 = Jeans.sigmar defaultHalo 2 none (.num 0) := by
    rw [hw _ rfl]; rfl
  rw [wit_calc rfl rfl rfl, wit_calc rfl rfl rfl, e1, e2]
  have hs := (C75_logHalo (amp := 1 + (10 : ℝ) ^ (-16 : ℤ)) (c2 := (10 : ℝ) ^ (-16 : ℤ)) (r := 2) (by positivity) (by positivity)
    two_pos).1
  rw [show C75aux.halo (1 + (10 : ℝ) ^ (-16 : ℤ)) ((10 : ℝ) ^ (-16 : ℤ)) = defaultHalo from rfl] at hs
  set σ := Jeans.sigmar defaultHalo 2 none (.num 0) with hσ
  have h0 : 0 ≤ σ := sqrt_nonneg _
  have hlt : σ ^ 2 < 1 := by rw [hs]; norm_num
  have hpos : 0 < σ ^ 2 := by rw [hs]; norm_num
  have hσ0 : 0 < σ := lt_of_le_of_ne h0 fun e => by rw [← e] at hpos; norm_num at hpos
  have hσ1 : σ < 1 := by nlinarith
  have key : erfFac (1 / (√2 * 1)) < erfFac (1 / (√2 * σ)) := by
    refine erfFac_lt (by positivity) (one_div_lt_one_div_of_lt (by positivity) ?_)
    exact mul_lt_mul_of_pos_left hσ1 h2
  have hd := wit_dens
  have hA : (init interp (wit fun _ => 1)).amp ≠ 0 := by
    simp only [init, wit]; have := pi_pos; positivity
  have hA' : (init interp (wit fun _ => 1)).repickle.amp = (init interp (wit fun _ => 1)).amp := rfl
  rw [hA']
  intro e
  have := mul_left_cancel₀ hA e
  simp only [Method.fac, Matrix.cons_val_zero, mul_one, neg_mul, neg_inj] at this
  have := mul_left_cancel₀ hd.ne' this
  rw [mul_one] at key
  exact key.ne' this

/-! ### Fuzzy dark matter -/

namespace C76aux

/-- The FDM coefficient before it is limited, as a function of `kr`. -/
def fdmC (k M Xf : ℝ) : ℝ :=
  if k > 2 * M then log (2 * k / M) * Xf
  else if k < M / 2 then -Ci (2 * k) + log (2 * k) + eulerMascheroniConstant + sin (2 * k) / (2 * k) - 1
  else lerp k (M / 2) (2 * M) (-Ci M + log M + eulerMascheroniConstant + sin M / M - 1) (log 4 * Xf)

theorem fdmC_nonneg {k M Xf : ℝ} (hk : 0 < k) (hM : 0 < M) (hX : 0 ≤ Xf) : 0 ≤ fdmC k M Xf := by
  unfold fdmC
  split_ifs with h1 h2
  · refine mul_nonneg (log_nonneg ?_) hX
    rw [le_div_iff₀ hM]; linarith
  · exact zvFac_nonneg (by linarith : 0 < 2 * k)
  · have hz : 0 ≤ zvFac M := zvFac_nonneg hM
    have hl : 0 ≤ log 4 * Xf := mul_nonneg (log_nonneg (by norm_num)) hX
    have hq : 0 < 2 * M - M / 2 := by linarith
    have a : 0 ≤ (k - M / 2) / (2 * M - M / 2) := div_nonneg (by linarith) hq.le
    have b : (k - M / 2) / (2 * M - M / 2) ≤ 1 := (div_le_one hq).2 (by linarith)
    show 0 ≤ lerp k (M / 2) (2 * M) (zvFac M) (log 4 * Xf)
    unfold lerp
    nlinarith [mul_nonneg hz (sub_nonneg.2 b), mul_nonneg hl a]

theorem fdmC_eq {k M Xf : ℝ} (hM : 0 < M) : fdmC k M Xf
    = zvFac (2 * min k (M / 2)) + (lerp (max (M / 2) (min k (2 * M))) (M / 2) (2 * M) (zvFac M) (log 4 * Xf) - zvFac M)
      + (log (2 * max k (2 * M) / M) * Xf - log 4 * Xf) := by
  have hq : 2 * M - M / 2 ≠ 0 := by linarith
  have e4 : 2 * (2 * M) / M = 4 := by field_simp; norm_num
  unfold fdmC
  split_ifs with h1 h2
  · rw [min_eq_right (by linarith : M / 2 ≤ k), min_eq_right h1.le, max_eq_right (by linarith : M / 2 ≤ 2 * M), max_eq_left h1.le,
      show 2 * (M / 2) = M by ring]
    unfold lerp
    rw [div_self hq]
    ring
  · rw [min_eq_left h2.le, min_eq_left (by linarith : k ≤ 2 * M), max_eq_left h2.le, max_eq_right (by linarith : k ≤ 2 * M), e4]
    unfold lerp zvFac
    simp
  · rw [min_eq_right (not_lt.1 h2), min_eq_left (not_lt.1 h1), max_eq_right (not_lt.1 h2), max_eq_right (not_lt.1 h1), e4,
      show 2 * (M / 2) = M by ring]
    unfold lerp zvFac
    ring

end C76aux

/-- Friction in fuzzy dark matter is the classical friction multiplied by a factor between 0 and 1, the same for the three
components. -/
theorem C76_FDM (interp : (ℝ → ℝ) → ℝ → ℝ) {a : Args} (ha : 0 < a.amp) (hG : 0 < a.GMs) (hg : 0 < a.gamma) (hL : 0 ≤ a.lnL)
    {mhbar : ℝ} (hm : 0 < mhbar) {R z φ t : ℝ} {v : Vec} (hR : 0 < R) (hv : Moving v)
    (hσ : 0 < (init interp a).sr (√(R ^ 2 + z ^ 2))) :
    ∃ f, 0 ≤ f ∧ f ≤ 1 ∧ ∀ m, ((init interp a).callFDM mhbar 0 m R z φ t v).2 = f * ((init interp a).call m R z φ t v).2 := by
  set o := init interp a with ho
  set r := √(R ^ 2 + z ^ 2) with hr
  have hv0 : 0 < speed v := sqrt_pos.2 hv
  have hr0 : 0 < r := sqrt_pos.2 (by positivity)
  have h2 : (0 : ℝ) < √2 := sqrt_pos.2 two_pos
  have hX : 0 < o.Xfactor r (speed v) := by rw [Obj.Xfactor_eq]; exact erfFac_pos (div_pos hv0 (mul_pos h2 hσ))
  have hLp : 0 < o.lnLambda r (speed v) := by rw [ho, lnLambda_eq interp ha.ne']; exact lnΛ_pos hL hG hg hr0 hv0
  have hC := mul_pos hLp hX
  have hF : 0 ≤ o.frictionFactor mhbar r (speed v) ∧ o.frictionFactor mhbar r (speed v) ≤ o.lnLambda r (speed v) * o.Xfactor r (speed v) := by
    have e : o.frictionFactor mhbar r (speed v)
        = if fdmC (kr mhbar r (speed v)) (o.Msigma r (speed v)) (o.Xfactor r (speed v)) < o.lnLambda r (speed v) * o.Xfactor r (speed v)
          then fdmC (kr mhbar r (speed v)) (o.Msigma r (speed v)) (o.Xfactor r (speed v))
          else o.lnLambda r (speed v) * o.Xfactor r (speed v) := rfl
    rw [e]
    have hn := fdmC_nonneg (k := kr mhbar r (speed v)) (M := o.Msigma r (speed v)) (by unfold kr; positivity)
      (div_pos hv0 hσ) hX.le
    split_ifs with h
    · exact ⟨hn, h.le⟩
    · exact ⟨hC.le, le_rfl⟩
  refine ⟨o.frictionFactor mhbar r (speed v) / (o.lnLambda r (speed v) * o.Xfactor r (speed v)), div_nonneg hF.1 hC.le,
    (div_le_one hC).2 hF.2, fun m => ?_⟩
  rw [call_eq o rfl]
  simp only [Obj.callFDM, Obj.callWith]
  rw [if_neg (by rw [ho]; simp [init])]
  simp only [Obj.calcFDM, Obj.calc, ← hr]
  split_ifs with h1 h2
  · ring
  · exact absurd rfl h2
  · field_simp

/-- The force does not jump where the regimes of the friction in fuzzy dark matter meet: the coefficient is continuous in the mass
of the particle. -/
theorem C76_FDM_continuous (o : Obj) {r v : ℝ} (hr : 0 < r) (hv : 0 < v) (hσ : 0 < o.sr r) :
    ContinuousOn (fun m => o.frictionFactor m r v) (Ioi 0) := by
  have hM : 0 < o.Msigma r v := div_pos hv hσ
  have e : ∀ m, o.frictionFactor m r v = min (fdmC (kr m r v) (o.Msigma r v) (o.Xfactor r v)) (o.lnLambda r v * o.Xfactor r v) := by
    intro m
    have : o.frictionFactor m r v = if fdmC (kr m r v) (o.Msigma r v) (o.Xfactor r v) < o.lnLambda r v * o.Xfactor r v
          then fdmC (kr m r v) (o.Msigma r v) (o.Xfactor r v) else o.lnLambda r v * o.Xfactor r v := rfl
    rw [this]
    split_ifs with h
    · rw [min_eq_left h.le]
    · rw [min_eq_right (not_lt.1 h)]
  simp only [e, fdmC_eq hM]
  have ck : Continuous fun m => kr m r v := by unfold kr; fun_prop
  generalize o.Msigma r v = M at hM
  generalize o.Xfactor r v = Xf
  refine ContinuousOn.inf (ContinuousOn.add (ContinuousOn.add ?_ ?_) ?_) continuousOn_const
  · intro m hm
    have hm' : (0 : ℝ) < m := hm
    have hk : 0 < 2 * min (kr m r v) (M / 2) := mul_pos two_pos (lt_min (by unfold kr; positivity) (by linarith))
    refine ContinuousAt.continuousWithinAt (ContinuousAt.comp (g := zvFac) (zvFac_deriv hk).continuousAt ?_)
    exact (continuous_const.mul (ck.min continuous_const)).continuousAt
  · unfold lerp
    have : Continuous fun m => max (M / 2) (min (kr m r v) (2 * M)) := continuous_const.max (ck.min continuous_const)
    exact Continuous.continuousOn (by fun_prop)
  · refine ContinuousOn.sub (ContinuousOn.mul (ContinuousOn.log ?_ fun m _ => ?_) continuousOn_const) continuousOn_const
    · exact Continuous.continuousOn ((continuous_const.mul (ck.max continuous_const)).div_const M)
    · have : 0 < max (kr m r v) (2 * M) := lt_max_of_lt_right (by linarith)
      positivity

example : ∃ f, 0 ≤ f ∧ f ≤ 1 ∧ ∀ m, ((init id (wit fun _ => 1)).callFDM 1 0 m 2 0 0 0 ![1, 0, 0]).2
    = f * ((init id (wit fun _ => 1)).call m 2 0 0 0 ![1, 0, 0]).2 := by
  refine C76_FDM id (by norm_num [wit]) (by norm_num [wit]) (by norm_num [wit]) (by norm_num [wit]) one_pos two_pos (by simp [Moving]) ?_
  have : (init id (wit fun _ => 1)).sr (√((2 : ℝ) ^ 2 + 0 ^ 2)) = 1 := by simp [Obj.sr, init, wit]
  rw [this]; exact one_pos

example : ContinuousOn (fun m => (init id (wit fun _ => 1)).frictionFactor m 2 1) (Ioi 0) := by
  refine C76_FDM_continuous _ two_pos one_pos ?_
  have : (init id (wit fun _ => 1)).sr 2 = 1 := by simp [Obj.sr, init, wit]
  rw [this]; exact one_pos

/-! ### C -/

namespace C76aux

/-- The cache is the initial one or holds the amplitude of its own arguments. -/
def CacheOK (A : ℝ → ℝ → ℝ → ℝ → ℝ → Vec → ℝ) (s : CPar.Cache) : Prop :=
  s.R = -1 ∨ s.A = A s.R s.z s.φ s.t (s.R * s.R + s.z * s.z) s.v

theorem cacheOK_step (p : CPar) {A : ℝ → ℝ → ℝ → ℝ → ℝ → Vec → ℝ} {s : CPar.Cache} (h : CacheOK A s) (m : Method)
    (R z φ t : ℝ) (v : Vec) : CacheOK A (p.callWith A s m R z φ t v).1 := by
  simp only [CPar.callWith]
  split_ifs
  · exact h
  · exact Or.inr rfl
  · exact h

theorem cacheOK_foldl (p : CPar) {A : ℝ → ℝ → ℝ → ℝ → ℝ → Vec → ℝ} (l : List (Method × ℝ × ℝ × ℝ × ℝ × Vec)) :
    ∀ {s : CPar.Cache}, CacheOK A s → CacheOK A (l.foldl (fun s c => (p.callWith A s c.1 c.2.1 c.2.2.1 c.2.2.2.1 c.2.2.2.2.1 c.2.2.2.2.2).1) s) := by
  induction l with
  | nil => intro s h; exact h
  | cons x l ih => intro s h; exact ih (cacheOK_step p h ..)

theorem c_call (p : CPar) {A : ℝ → ℝ → ℝ → ℝ → ℝ → Vec → ℝ} {s : CPar.Cache} (h : CacheOK A s) (m : Method)
    {R : ℝ} (hR : 0 ≤ R) (z φ t : ℝ) (v : Vec) :
    (p.callWith A s m R z φ t v).2 = if R * R + z * z < p.minr2 then 0 else A R z φ t (R * R + z * z) v * m.fac R v := by
  simp only [CPar.callWith]
  split_ifs with h1 h2
  · rfl
  · rfl
  · push Not at h2
    obtain ⟨a1, a2, a3, a4, a5, a6, a7⟩ := h2
    have hv : v = s.v := vec_ext a5 a6 a7
    rcases h with h | h
    · exfalso; rw [← a1] at h; linarith
    · simp only
      rw [h, ← a1, ← a2, ← a3, ← a4, ← hv]

theorem c_speed (v : Vec) : √(v 0 * v 0 + v 1 * v 1 + v 2 * v 2) = speed v := by
  simp only [speed, pow_two]

theorem c_speed_sq (v : Vec) : v 0 * v 0 + v 1 * v 1 + v 2 * v 2 = speed v ^ 2 := by
  rw [← c_speed, sq_sqrt]
  nlinarith [mul_self_nonneg (v 0), mul_self_nonneg (v 1), mul_self_nonneg (v 2)]

/-- C and Python agree on the pieces within the grid. -/
theorem pieces (o : Obj) (cspl cspl' : ℝ → ℝ) (hg : o.minr < o.maxr) (hL : 0 ≤ o.lnL) {r : ℝ}
    (h1 : o.minr ≤ r) (h2 : r ≤ o.maxr) (hs : cspl ((r - o.minr) / (o.maxr - o.minr)) = o.spl r) (v : ℝ) :
    (o.toC cspl cspl').sr r = o.sr r ∧ (o.toC cspl cspl').Xfactor r v = o.Xfactor r v
      ∧ (o.toC cspl cspl').lnL (r ^ 2) v = o.lnLambda r v := by
  have e1 : (o.toC cspl cspl').sr r = o.sr r := by
    simp only [CPar.sr, Obj.sr]
    rw [CPar.dInd_mid (p := o.toC cspl cspl') hg h1 h2, if_neg (not_lt.2 h2)]
    exact hs
  refine ⟨e1, by rw [CPar.Xfactor_eq, Obj.Xfactor_eq, e1], ?_⟩
  by_cases hz : o.lnL = 0
  · have q1 : (o.toC cspl cspl').lnLambda < 0 := by simp only [Obj.toC, hz, if_true]; norm_num
    simp only [CPar.lnL, Obj.lnLambda]
    rw [if_pos q1, if_neg (show ¬o.lnL ≠ 0 from not_not.2 hz)]
    show (if o.ms / v / v < o.rhm then 0.5 * log (1 + r ^ 2 / o.gamma ^ 2 / o.rhm / o.rhm)
      else 0.5 * log (1 + r ^ 2 / o.gamma ^ 2 / (o.ms / v / v) / (o.ms / v / v))) = _
    have e05 : (0.5 : ℝ) = 1 / 2 := by norm_num
    have ev : o.ms / v / v = o.ms / v ^ 2 := by rw [div_div, ← pow_two]
    by_cases h : o.ms / v / v < o.rhm
    · rw [if_pos h, e05]
      simp only [if_pos (show o.ms / v ^ 2 < o.rhm by rw [← ev]; exact h)]
      simp only [div_pow]; rw [div_div (r ^ 2 / _), ← pow_two]
    · rw [if_neg h, e05, ev]
      simp only [if_neg (show ¬o.ms / v ^ 2 < o.rhm by rw [← ev]; exact h)]
      simp only [div_pow]; rw [div_div (r ^ 2 / _), ← pow_two]
      simp only [div_pow]
  · simp only [CPar.lnL, Obj.lnLambda, Obj.toC]
    simp only [hz, if_false, ne_eq, not_false_eq_true, if_true]
    rw [if_neg (not_lt.2 hL)]

end C76aux

/-- Within the grid of the dispersion, and where the two splines through the same points agree, the C forces are the Python
forces, whatever was evaluated before with the same C arguments. -/
theorem C51_Chandrasekhar_partial (interp : (ℝ → ℝ) → ℝ → ℝ) {a : Args} (cspl cspl' : ℝ → ℝ) (h0 : 0 ≤ a.minr)
    (hg : a.minr < a.maxr) (hL : 0 ≤ a.lnL) (l : List (Method × ℝ × ℝ × ℝ × ℝ × Vec)) (m : Method) {R z : ℝ} (hR : 0 ≤ R)
    (φ t : ℝ) (v : Vec) (hr : √(R ^ 2 + z ^ 2) ≤ a.maxr)
    (hs : cspl ((√(R ^ 2 + z ^ 2) - a.minr) / (a.maxr - a.minr)) = (init interp a).spl (√(R ^ 2 + z ^ 2))) :
    (((init interp a).toC cspl cspl').call (l.foldl (fun s c => (((init interp a).toC cspl cspl').call s c.1 c.2.1 c.2.2.1
        c.2.2.2.1 c.2.2.2.2.1 c.2.2.2.2.2).1) .fresh) m R z φ t v).2
      = ((init interp a).call m R z φ t v).2 := by
  have hc := cacheOK_foldl ((init interp a).toC cspl cspl') (A := ((init interp a).toC cspl cspl').amplitude) l
    (s := .fresh) (Or.inl rfl)
  rw [CPar.call, c_call _ hc m hR, call_eq _ rfl]
  have hn : 0 ≤ R ^ 2 + z ^ 2 := by positivity
  have e2 : √(R ^ 2 + z ^ 2) ^ 2 = R ^ 2 + z ^ 2 := sq_sqrt hn
  rw [show R * R + z * z = R ^ 2 + z ^ 2 by ring]
  have hmin : (R ^ 2 + z ^ 2 < ((init interp a).toC cspl cspl').minr2) ↔ √(R ^ 2 + z ^ 2) < a.minr := by
    rw [show ((init interp a).toC cspl cspl').minr2 = a.minr ^ 2 from rfl]
    conv_lhs => rw [← e2]
    exact pow_lt_pow_iff_left₀ (sqrt_nonneg _) h0 two_ne_zero
  simp only [Obj.calc]
  rw [show (init interp a).minr = a.minr from rfl]
  by_cases h : √(R ^ 2 + z ^ 2) < a.minr
  · rw [if_pos (hmin.2 h), if_pos h]; ring
  · rw [if_neg (fun k => h (hmin.1 k)), if_neg h]
    obtain ⟨-, p2, p3⟩ := pieces (init interp a) cspl cspl' hg hL (not_lt.1 h) hr hs (speed v)
    simp only [CPar.amplitude, c_speed]
    rw [p2]
    rw [e2] at p3
    rw [p3]
    have hv2 : v 0 * v 0 + v 1 * v 1 + v 2 * v 2 = speed v ^ 2 := by
      exact c_speed_sq v
    rw [hv2]
    show -(init interp a).amp * _ * _ / _ / _ * (init interp a).densPot.dens R z φ t * _ = _
    by_cases hv : speed v = 0
    · simp [hv]
    · field_simp

/-- Beyond `maxr` the C force uses the dispersion at `maxr`, the Python force the dispersion at the radius itself; they differ
even when both splines reproduce the dispersion function exactly. -/
theorem C51_Chandrasekhar_fails : ∃ (a : Args) (σ cspl cspl' : ℝ → ℝ) (R z φ t : ℝ) (v : Vec), a.sigmar = some σ ∧
    a.minr < a.maxr ∧ (∀ r, cspl ((r - a.minr) / (a.maxr - a.minr)) = σ r) ∧
    (((init id a).toC cspl cspl').call .fresh .Rforce R z φ t v).2 ≠ ((init id a).call .Rforce R z φ t v).2 := by
  refine ⟨wit fun x => x, fun x => x, fun d => 1 / 2 + d * (1 / 2), fun _ => 1 / 2, 2, 0, 0, 0, ![1, 0, 0], rfl, by norm_num [wit],
    fun r => by simp only [wit]; ring, ?_⟩
  have h2 : (0 : ℝ) < √2 := sqrt_pos.2 two_pos
  rw [CPar.call, c_call _ (Or.inl rfl) _ two_pos.le, call_eq _ rfl, wit_calc rfl rfl rfl]
  have hm : ¬(2 : ℝ) * 2 + 0 * 0 < ((init id (wit fun x => x)).toC (fun d => 1 / 2 + d * (1 / 2)) fun _ => 1 / 2).minr2 := by
    simp only [Obj.toC, init, wit]; norm_num
  rw [if_neg hm]
  simp only [CPar.amplitude, c_speed, wit_speed]
  have e4 : √((2 : ℝ) * 2 + 0 * 0) = 2 := by
    rw [show (2 : ℝ) * 2 + 0 * 0 = 2 ^ 2 by norm_num, sqrt_sq two_pos.le]
  have e1 : (init id (wit fun x => x)).sr 2 = 2 := by
    simp only [Obj.sr]; rw [if_pos (show (2 : ℝ) > (init id (wit fun x => x)).maxr by norm_num [init, wit])]; rfl
  have e3 : ((init id (wit fun x => x)).toC (fun d => 1 / 2 + d * (1 / 2)) fun _ => 1 / 2).sr 2 = 1 := by
    simp only [CPar.sr]
    rw [CPar.dInd_out (by norm_num [Obj.toC, init, wit]) (by norm_num [Obj.toC, init, wit])]
    norm_num [Obj.toC]
  have e5 : ((init id (wit fun x => x)).toC (fun d => 1 / 2 + d * (1 / 2)) fun _ => 1 / 2).lnL (2 * 2 + 0 * 0) 1 = 1 := by
    simp only [CPar.lnL, Obj.toC, init, wit]; norm_num
  rw [e4, CPar.Xfactor_eq, e1, e3, e5]
  have key : erfFac (1 / (√2 * 2)) < erfFac (1 / (√2 * 1)) :=
    erfFac_lt (by positivity) (one_div_lt_one_div_of_lt (by positivity) (mul_lt_mul_of_pos_left one_lt_two h2))
  have hd := wit_dens
  have hA : 0 < (init id (wit fun x => x)).amp := by
    simp only [init, wit]; have := pi_pos; positivity
  have e6 : ((init id (wit fun x => x)).toC (fun d => 1 / 2 + d * (1 / 2)) fun _ => 1 / 2).amp = (init id (wit fun x => x)).amp := rfl
  have e7 : ((init id (wit fun x => x)).toC (fun d => 1 / 2 + d * (1 / 2)) fun _ => 1 / 2).dens 2 0 0 0 = defaultHalo.dens 2 0 0 0 := rfl
  rw [e6, e7]
  simp only [Method.fac, Matrix.cons_val_zero, Matrix.cons_val_one, Matrix.cons_val]
  have := mul_lt_mul_of_pos_left key (mul_pos hA hd)
  intro e
  norm_num at e this
  linarith

/-- The same for friction in fuzzy dark matter, for a body that moves. -/
theorem C51_FDM_partial (interp : (ℝ → ℝ) → ℝ → ℝ) {a : Args} (cspl cspl' : ℝ → ℝ) (h0 : 0 ≤ a.minr) (ha : 0 < a.amp)
    (hG : 0 < a.GMs) (hga : 0 < a.gamma) (hg : a.minr < a.maxr) (hL : 0 ≤ a.lnL) {mhbar constF : ℝ} (hF : 0 ≤ constF)
    (l : List (Method × ℝ × ℝ × ℝ × ℝ × Vec)) (m : Method) {R z : ℝ} (hR : 0 < R)
    (φ t : ℝ) {v : Vec} (hv : Moving v) (hr : √(R ^ 2 + z ^ 2) ≤ a.maxr) (hσ : 0 < (init interp a).sr (√(R ^ 2 + z ^ 2)))
    (hs : cspl ((√(R ^ 2 + z ^ 2) - a.minr) / (a.maxr - a.minr)) = (init interp a).spl (√(R ^ 2 + z ^ 2))) :
    (((init interp a).toC cspl cspl').callFDM mhbar (if constF = 0 then -1 else constF)
        (l.foldl (fun s c => (((init interp a).toC cspl cspl').callFDM mhbar (if constF = 0 then -1 else constF) s c.1 c.2.1 c.2.2.1
        c.2.2.2.1 c.2.2.2.2.1 c.2.2.2.2.2).1) .fresh) m R z φ t v).2
      = ((init interp a).callFDM mhbar constF m R z φ t v).2 := by
  have hc := cacheOK_foldl ((init interp a).toC cspl cspl')
    (A := ((init interp a).toC cspl cspl').amplitudeFDM mhbar (if constF = 0 then -1 else constF)) l (s := .fresh) (Or.inl rfl)
  rw [CPar.callFDM, c_call _ hc m hR.le]
  simp only [Obj.callFDM, Obj.callWith]
  rw [if_neg (show ¬(init interp a).hash = some ⟨R, φ, z, v, t⟩ by simp [init])]
  have hn : 0 < R ^ 2 + z ^ 2 := by positivity
  have e2 : √(R ^ 2 + z ^ 2) ^ 2 = R ^ 2 + z ^ 2 := sq_sqrt hn.le
  rw [show R * R + z * z = R ^ 2 + z ^ 2 by ring]
  have hmin : (R ^ 2 + z ^ 2 < ((init interp a).toC cspl cspl').minr2) ↔ √(R ^ 2 + z ^ 2) < a.minr := by
    rw [show ((init interp a).toC cspl cspl').minr2 = a.minr ^ 2 from rfl]
    conv_lhs => rw [← e2]
    exact pow_lt_pow_iff_left₀ (sqrt_nonneg _) h0 two_ne_zero
  simp only [Obj.calcFDM]
  rw [show (init interp a).minr = a.minr from rfl]
  by_cases h : √(R ^ 2 + z ^ 2) < a.minr
  · rw [if_pos (hmin.2 h), if_pos h]; ring
  rw [if_neg (fun k => h (hmin.1 k)), if_neg h]
  have hv0 : 0 < speed v := sqrt_pos.2 hv
  obtain ⟨p1, p2, p3⟩ := pieces (init interp a) cspl cspl' hg hL (not_lt.1 h) hr hs (speed v)
  have hr0 : 0 < √(R ^ 2 + z ^ 2) := sqrt_pos.2 hn
  have h2 : (0 : ℝ) < √2 := sqrt_pos.2 two_pos
  have hX : 0 < (init interp a).Xfactor (√(R ^ 2 + z ^ 2)) (speed v) := by
    rw [Obj.Xfactor_eq]; exact erfFac_pos (div_pos hv0 (mul_pos h2 hσ))
  have hLp : 0 < (init interp a).lnLambda (√(R ^ 2 + z ^ 2)) (speed v) := by
    rw [lnLambda_eq interp ha.ne']; exact lnΛ_pos hL hG hga hr0 hv0
  have hC := mul_pos hLp hX
  rw [e2] at p3
  have hv2 : v 0 * v 0 + v 1 * v 1 + v 2 * v 2 = speed v ^ 2 := by
    exact c_speed_sq v
  -- the FDM factor
  have hfac : ((init interp a).toC cspl cspl').fdmFactor mhbar (if constF = 0 then -1 else constF) (√(R ^ 2 + z ^ 2)) (speed v)
      = if constF = 0 then fdmC (kr mhbar (√(R ^ 2 + z ^ 2)) (speed v)) ((init interp a).Msigma (√(R ^ 2 + z ^ 2)) (speed v))
          ((init interp a).Xfactor (√(R ^ 2 + z ^ 2)) (speed v)) else constF := by
    by_cases hz : constF = 0
    · simp only [CPar.fdmFactor, hz, if_true, p1, p2]
      rw [if_pos (by norm_num)]
      have hM : 0 < (init interp a).Msigma (√(R ^ 2 + z ^ 2)) (speed v) := div_pos hv0 hσ
      rw [show speed v / (init interp a).sr (√(R ^ 2 + z ^ 2)) = (init interp a).Msigma (√(R ^ 2 + z ^ 2)) (speed v) from rfl,
        show (2.0 : ℝ) * mhbar * speed v * √(R ^ 2 + z ^ 2) = 2 * kr mhbar (√(R ^ 2 + z ^ 2)) (speed v) by unfold kr; norm_num; ring]
      generalize (init interp a).Msigma (√(R ^ 2 + z ^ 2)) (speed v) = M at hM
      generalize kr mhbar (√(R ^ 2 + z ^ 2)) (speed v) = k
      simp only [fdmC]
      by_cases c1 : 2 * k < M
      · rw [if_pos c1, if_neg (by linarith), if_pos (by linarith)]; ring
      · by_cases c2 : 2 * k > 4 * M
        · rw [if_neg c1, if_pos c2, if_pos (by linarith)]
        · rw [if_neg c1, if_neg c2, if_neg (by linarith), if_neg (by linarith)]
          unfold lerp
          have hq : 2 * M - M / 2 ≠ 0 := by linarith
          field_simp
          ring
    · simp only [CPar.fdmFactor, hz, if_false]
      rw [if_neg (not_lt.2 hF)]
  simp only [CPar.amplitudeFDM, CPar.amplitude, c_speed]
  rw [hfac, p2, p3, hv2]
  show _ = (init interp a).amp * _
  rw [show ((init interp a).toC cspl cspl').amp = (init interp a).amp from rfl,
    show ((init interp a).toC cspl cspl').dens = (init interp a).densPot.dens from rfl]
  by_cases hz : constF = 0
  · have e : (init interp a).frictionFactor mhbar (√(R ^ 2 + z ^ 2)) (speed v)
        = if fdmC (kr mhbar (√(R ^ 2 + z ^ 2)) (speed v)) ((init interp a).Msigma (√(R ^ 2 + z ^ 2)) (speed v))
            ((init interp a).Xfactor (√(R ^ 2 + z ^ 2)) (speed v))
            < (init interp a).lnLambda (√(R ^ 2 + z ^ 2)) (speed v) * (init interp a).Xfactor (√(R ^ 2 + z ^ 2)) (speed v)
          then fdmC (kr mhbar (√(R ^ 2 + z ^ 2)) (speed v)) ((init interp a).Msigma (√(R ^ 2 + z ^ 2)) (speed v))
            ((init interp a).Xfactor (√(R ^ 2 + z ^ 2)) (speed v))
          else (init interp a).lnLambda (√(R ^ 2 + z ^ 2)) (speed v) * (init interp a).Xfactor (√(R ^ 2 + z ^ 2)) (speed v) := rfl
    simp only [hz, if_true, ne_eq, not_true, if_false]
    rw [e]
    generalize fdmC _ _ _ = C at *
    generalize (init interp a).lnLambda _ _ = L at *
    generalize (init interp a).Xfactor _ _ = Xf at *
    by_cases hlt : C < L * Xf
    · rw [if_pos hlt, if_pos (Or.inl ((div_lt_one hC).2 hlt))]
      field_simp
    · rw [if_neg hlt, if_neg (by
        rintro (k | k)
        · exact hlt ((div_lt_one hC).1 k)
        · norm_num at k)]
      field_simp
  · simp only [hz, if_false, ne_eq, not_false_eq_true, if_true]
    rw [if_pos (Or.inr hF)]
    field_simp

example (l : List (Method × ℝ × ℝ × ℝ × ℝ × Vec)) :
    (((init id (wit fun x => x)).toC (fun d => 1 / 2 + d * (1 / 2)) fun _ => 1 / 2).call
      (l.foldl (fun s c => (((init id (wit fun x => x)).toC (fun d => 1 / 2 + d * (1 / 2)) fun _ => 1 / 2).call s c.1 c.2.1 c.2.2.1
        c.2.2.2.1 c.2.2.2.2.1 c.2.2.2.2.2).1) .fresh) .phitorque (3 / 4) 0 0 0 ![1, 1, 0]).2
      = ((init id (wit fun x => x)).call .phitorque (3 / 4) 0 0 0 ![1, 1, 0]).2 := by
  have e : √(((3 : ℝ) / 4) ^ 2 + 0 ^ 2) = 3 / 4 := by
    rw [show ((3 : ℝ) / 4) ^ 2 + 0 ^ 2 = (3 / 4) ^ 2 by norm_num, sqrt_sq (by norm_num)]
  refine C51_Chandrasekhar_partial id _ _ (by norm_num [wit]) (by norm_num [wit]) (by norm_num [wit]) l _ (by norm_num) 0 0 _ ?_ ?_
  · rw [e]; norm_num [wit]
  · rw [e]; norm_num [wit, init]

/-! ### The C Jacobian -/

/-- The Coulomb logarithm is positive; a negative constant stands for the variable one. -/
theorem C76aux.c_lnL_pos {p : CPar} {r v : ℝ} (h : p.LogOK v) (hl : p.lnLambda ≠ 0) (hr : 0 < r) (hv : 0 < v) :
    0 < p.lnL (r ^ 2) v := by
  have h1 := h.gamma
  have h2 := h.ms
  simp only [CPar.lnL]
  split_ifs with a b
  · have hb : 0 < p.rhm := lt_trans (by positivity) b
    refine mul_pos (by norm_num) (log_pos ?_)
    have : 0 < r ^ 2 / p.gamma2 / p.rhm / p.rhm := by positivity
    linarith
  · refine mul_pos (by norm_num) (log_pos ?_)
    have : 0 < r ^ 2 / p.gamma2 / (p.ms / v / v) / (p.ms / v / v) := by positivity
    linarith
  · exact lt_of_le_of_ne (not_lt.1 a) hl.symm

/-- The force in rectangular coordinates that the C integrator forms from the three components: `F m R z φ w` is the value of
a force method, `w` the cylindrical velocity. -/
def C76Spec.rectForce (F : Method → ℝ → ℝ → ℝ → Vec → ℝ) (q : Fin 6 → ℝ) : Vec :=
  let R := √(q 0 * q 0 + q 1 * q 1);
  let φ := atan2 (q 1) (q 0);
  let w : Vec := ![q 3 * cos φ + q 4 * sin φ, -q 3 * sin φ + q 4 * cos φ, q 5];
  ![cos φ * F .Rforce R (q 2) φ w - sin φ * (F .phitorque R (q 2) φ w / R),
    sin φ * F .Rforce R (q 2) φ w + cos φ * (F .phitorque R (q 2) φ w / R),
    F .zforce R (q 2) φ w]

/-- `g` is the gradient of the background density at the position `x`. -/
def C76Spec.DensGrad (dens : ℝ → ℝ → ℝ → ℝ → ℝ) (t : ℝ) (x g : Vec) : Prop :=
  ∀ (c : ℝ → Vec) (c' : Vec) (s : ℝ), c s = x → (∀ i, HasDerivAt (fun u => c u i) (c' i) s) →
    HasDerivAt (fun u => dens (√(c u 0 * c u 0 + c u 1 * c u 1)) (c u 2) (atan2 (c u 1) (c u 0)) t)
      (g 0 * c' 0 + g 1 * c' 1 + g 2 * c' 2) s

namespace C76aux

theorem rect_eq {p : CPar} {A : ℝ → ℝ → ℝ → ℝ → ℝ → Vec → ℝ} {t : ℝ} {C : ℝ → ℝ → ℝ}
    (hA : ∀ R z φ w, 0 < w 0 * w 0 + w 1 * w 1 + w 2 * w 2 → p.minr2 ≤ R * R + z * z → 0 < R →
      A R z φ t (R * R + z * z) w
      = -p.amp * C (√(R * R + z * z)) (√(w 0 * w 0 + w 1 * w 1 + w 2 * w 2)) / √(w 0 * w 0 + w 1 * w 1 + w 2 * w 2) ^ 3 * p.dens R z φ t)
    {q : Fin 6 → ℝ} (hR : 0 < q 0 * q 0 + q 1 * q 1) (hv : 0 < q 3 * q 3 + q 4 * q 4 + q 5 * q 5)
    (hm : p.minr2 ≤ q 0 * q 0 + q 1 * q 1 + q 2 * q 2) (i : Fin 3) :
    rectForce (fun m R z φ w => (p.callWith A .fresh m R z φ t w).2) q i
      = -p.amp * C (√(q 0 * q 0 + q 1 * q 1 + q 2 * q 2)) (√(q 3 * q 3 + q 4 * q 4 + q 5 * q 5))
        / √(q 3 * q 3 + q 4 * q 4 + q 5 * q 5) ^ 3 * p.dens (√(q 0 * q 0 + q 1 * q 1)) (q 2) (atan2 (q 1) (q 0)) t
        * (![q 3, q 4, q 5] : Vec) i := by
  have hRp : 0 < √(q 0 * q 0 + q 1 * q 1) := sqrt_pos.2 hR
  have hRR : √(q 0 * q 0 + q 1 * q 1) * √(q 0 * q 0 + q 1 * q 1) = q 0 * q 0 + q 1 * q 1 := mul_self_sqrt hR.le
  simp only [rectForce]
  generalize hφ : atan2 (q 1) (q 0) = φ
  generalize hRd : √(q 0 * q 0 + q 1 * q 1) = R at *
  have hcs := sin_sq_add_cos_sq φ
  set w : Vec := ![q 3 * cos φ + q 4 * sin φ, -q 3 * sin φ + q 4 * cos φ, q 5] with hw
  have hw2 : w 0 * w 0 + w 1 * w 1 + w 2 * w 2 = q 3 * q 3 + q 4 * q 4 + q 5 * q 5 := by
    simp only [hw, Matrix.cons_val_zero, Matrix.cons_val_one, Matrix.cons_val]
    linear_combination (q 3 * q 3 + q 4 * q 4) * hcs
  have hr2 : R * R + q 2 * q 2 = q 0 * q 0 + q 1 * q 1 + q 2 * q 2 := by rw [hRR]
  have key : ∀ m, (p.callWith A .fresh m R (q 2) φ t w).2
      = -p.amp * C (√(q 0 * q 0 + q 1 * q 1 + q 2 * q 2)) (√(q 3 * q 3 + q 4 * q 4 + q 5 * q 5))
        / √(q 3 * q 3 + q 4 * q 4 + q 5 * q 5) ^ 3 * p.dens R (q 2) φ t * m.fac R w := by
    intro m
    rw [c_call p (Or.inl rfl) m hRp.le, if_neg (by rw [hr2]; exact not_lt.2 hm), hA R (q 2) φ w (by rw [hw2]; exact hv)
      (by rw [hr2]; exact hm) hRp, hw2, hr2]
  simp only [key]
  generalize -p.amp * C (√(q 0 * q 0 + q 1 * q 1 + q 2 * q 2)) (√(q 3 * q 3 + q 4 * q 4 + q 5 * q 5))
        / √(q 3 * q 3 + q 4 * q 4 + q 5 * q 5) ^ 3 * p.dens R (q 2) φ t = K
  simp only [Method.fac, hw, Matrix.cons_val_zero, Matrix.cons_val_one, Matrix.cons_val]
  fin_cases i
  · simp
    field_simp
    linear_combination K * q 3 * hcs
  · simp
    field_simp
    linear_combination K * q 4 * hcs
  · simp

theorem jac_of_coef {p : CPar} {A : ℝ → ℝ → ℝ → ℝ → ℝ → Vec → ℝ} {t : ℝ} {C : ℝ → ℝ → ℝ} {Cr Cv : ℝ}
    (hA : ∀ R z φ w, 0 < w 0 * w 0 + w 1 * w 1 + w 2 * w 2 → p.minr2 ≤ R * R + z * z → 0 < R →
      A R z φ t (R * R + z * z) w
      = -p.amp * C (√(R * R + z * z)) (√(w 0 * w 0 + w 1 * w 1 + w 2 * w 2)) / √(w 0 * w 0 + w 1 * w 1 + w 2 * w 2) ^ 3 * p.dens R z φ t)
    {q : Fin 6 → ℝ} {g : Vec} (hR : 0 < q 0 * q 0 + q 1 * q 1) (hv : 0 < q 3 * q 3 + q 4 * q 4 + q 5 * q 5)
    (hm : p.minr2 < q 0 * q 0 + q 1 * q 1 + q 2 * q 2)
    (hC : CurveDeriv C (√(q 0 * q 0 + q 1 * q 1 + q 2 * q 2)) (√(q 3 * q 3 + q 4 * q 4 + q 5 * q 5)) Cr Cv)
    (hg : DensGrad p.dens t ![q 0, q 1, q 2] g) {J : Matrix (Fin 3) (Fin 6) ℝ}
    (hJ : ∀ (i : Fin 3) (c' : Fin 6 → ℝ),
      (let r := √(q 0 * q 0 + q 1 * q 1 + q 2 * q 2);
      let v := √(q 3 * q 3 + q 4 * q 4 + q 5 * q 5);
      let vi := (![q 3, q 4, q 5] : Vec) i;
      let ρ := p.dens (√(q 0 * q 0 + q 1 * q 1)) (q 2) (atan2 (q 1) (q 0)) t;
      let Cf := -p.amp / v ^ 2 / v;
      let A := Cf * C r v * ρ;
      let dAdv := Cf * ρ * (Cv - 3 * C r v / v);
      let dAdx : Fin 3 → Fin 6 → ℝ := fun j l => Cf * (Cr * q l / r * ρ + C r v * g j);
      vi * dAdx 0 0 * c' 0 + vi * dAdx 1 1 * c' 1 + vi * dAdx 2 2 * c' 2
        + vi * q 3 / v * dAdv * c' 3 + vi * q 4 / v * dAdv * c' 4 + vi * q 5 / v * dAdv * c' 5 + A * (![c' 3, c' 4, c' 5] : Vec) i)
        = ∑ j, J i j * c' j) :
    IsJacobian (rectForce fun m R z φ w => (p.callWith A .fresh m R z φ t w).2) q J := by
  intro c c' s hcs hc i
  have hr : 0 < q 0 * q 0 + q 1 * q 1 + q 2 * q 2 := by nlinarith [mul_self_nonneg (q 2)]
  have hk : ∀ k : Fin 6, (∀ u : Fin 6 → ℝ, (![u 3, u 4, u 5] : Vec) i = u k) →
      HasDerivAt (fun s => rectForce (fun m R z φ w => (p.callWith A .fresh m R z φ t w).2) (c s) i) (∑ j, J i j * c' j) s := by
    intro k hki
    have hρ := hg (fun u => ![c u 0, c u 1, c u 2]) ![c' 0, c' 1, c' 2] s (by rw [hcs]) (fun j => by
      fin_cases j
      · exact hc 0
      · exact hc 1
      · exact hc 2)
    have key := CPar.assemble (amp := p.amp) (ρ := p.dens (√(q 0 * q 0 + q 1 * q 1)) (q 2) (atan2 (q 1) (q 0)) t) (C := C) hc
      (by rw [hcs]; exact hr) (by rw [hcs]; exact hv) (by rw [hcs]; exact hC) hρ (by rw [hcs]; rfl) k
    rw [hcs] at key
    have hJk := hJ i c'
    simp only [hki] at hJk
    rw [← hJk]
    refine key.congr_of_eventuallyEq ?_
    have cc : ∀ i, ContinuousAt (fun u => c u i) s := fun i => (hc i).continuousAt
    have c1 : ContinuousAt (fun u => c u 0 * c u 0 + c u 1 * c u 1) s := ((cc 0).mul (cc 0)).add ((cc 1).mul (cc 1))
    have c2 : ContinuousAt (fun u => c u 0 * c u 0 + c u 1 * c u 1 + c u 2 * c u 2) s := c1.add ((cc 2).mul (cc 2))
    have c3 : ContinuousAt (fun u => c u 3 * c u 3 + c u 4 * c u 4 + c u 5 * c u 5) s :=
      (((cc 3).mul (cc 3)).add ((cc 4).mul (cc 4))).add ((cc 5).mul (cc 5))
    filter_upwards [continuousAt_const.eventually_lt c1 (by simp only [hcs]; exact hR),
      continuousAt_const.eventually_lt c2 (by simp only [hcs]; exact hm),
      continuousAt_const.eventually_lt c3 (by simp only [hcs]; exact hv)] with u u1 u2 u3
    rw [rect_eq hA u1 u3 u2.le i, hki]
    rfl
  fin_cases i
  · exact hk 3 fun u => rfl
  · exact hk 4 fun u => rfl
  · exact hk 5 fun u => rfl

end C76aux

/-- The C Jacobian of the Chandrasekhar force is the matrix of partial derivatives of the rectangular force with respect to
position and velocity, given the gradient of the density (the code takes it by central differences), away from the rotation
axis, from `minr`, from the end of the dispersion grid and from the switch of the Coulomb logarithm. -/
theorem C76_jacobian {p : CPar} {t : ℝ} {q : Fin 6 → ℝ} {g : Vec} (hR : 0 < q 0 * q 0 + q 1 * q 1)
    (hv : 0 < q 3 * q 3 + q 4 * q 4 + q 5 * q 5) (hm : p.minr2 < q 0 * q 0 + q 1 * q 1 + q 2 * q 2)
    (hs : p.SplineOK (√(q 0 * q 0 + q 1 * q 1 + q 2 * q 2))) (hL : p.LogOK (√(q 3 * q 3 + q 4 * q 4 + q 5 * q 5)))
    (hg : DensGrad p.dens t ![q 0, q 1, q 2] g) :
    IsJacobian (rectForce fun m R z φ w => (p.call .fresh m R z φ t w).2) q (p.jac t g q) := by
  have hr : 0 < q 0 * q 0 + q 1 * q 1 + q 2 * q 2 := by nlinarith [mul_self_nonneg (q 2)]
  have hrp := sqrt_pos.2 hr
  have hvp := sqrt_pos.2 hv
  have hr2 : √(q 0 * q 0 + q 1 * q 1 + q 2 * q 2) ^ 2 = q 0 * q 0 + q 1 * q 1 + q 2 * q 2 := sq_sqrt hr.le
  have hv2 : √(q 3 * q 3 + q 4 * q 4 + q 5 * q 5) ^ 2 = q 3 * q 3 + q 4 * q 4 + q 5 * q 5 := sq_sqrt hv.le
  have hsr := hs.pos
  refine jac_of_coef (C := fun r v => p.lnL (r ^ 2) v * p.Xfactor r v) ?_ hR hv hm (CPar.ccdm_deriv hs hL hrp hvp) hg ?_
  · intro R z φ w hw _ hRp
    have hn : 0 < R * R + z * z := by nlinarith [mul_self_nonneg z]
    have e1 : √(R * R + z * z) ^ 2 = R * R + z * z := sq_sqrt hn.le
    have e2 : √(w 0 * w 0 + w 1 * w 1 + w 2 * w 2) ^ 2 = w 0 * w 0 + w 1 * w 1 + w 2 * w 2 := sq_sqrt hw.le
    have hwp := sqrt_pos.2 hw
    simp only [CPar.amplitude, e1]
    rw [← e2]
    rw [sqrt_sq hwp.le]
    field_simp
  · intro i c'
    simp only [CPar.jac]
    rw [if_neg (not_lt.2 hm.le)]
    simp only [hr2]
    simp only [Matrix.cons_val_zero, Matrix.cons_val_one, Matrix.cons_val, Fin.sum_univ_six, Matrix.of_apply]
    rw [← hv2]
    rw [sqrt_sq hvp.le]
    generalize √(q 0 * q 0 + q 1 * q 1 + q 2 * q 2) = r at *
    generalize √(q 3 * q 3 + q 4 * q 4 + q 5 * q 5) = v at *
    fin_cases i <;> simp <;> field_simp <;> ring

/-- The same for friction in fuzzy dark matter, away from the radii and speeds where the regimes meet. -/
theorem C76_jacobian_FDM {p : CPar} {t mhbar constF : ℝ} {q : Fin 6 → ℝ} {g : Vec} (hR : 0 < q 0 * q 0 + q 1 * q 1)
    (hv : 0 < q 3 * q 3 + q 4 * q 4 + q 5 * q 5) (hm : p.minr2 < q 0 * q 0 + q 1 * q 1 + q 2 * q 2)
    (hs : p.SplineOK (√(q 0 * q 0 + q 1 * q 1 + q 2 * q 2))) (hL : p.LogOK (√(q 3 * q 3 + q 4 * q 4 + q 5 * q 5)))
    (hg : DensGrad p.dens t ![q 0, q 1, q 2] g) (hl : p.lnLambda ≠ 0)
    (hreg : constF < 0 → 0 < mhbar ∧
      let r := √(q 0 * q 0 + q 1 * q 1 + q 2 * q 2);
      let v := √(q 3 * q 3 + q 4 * q 4 + q 5 * q 5);
      2 * mhbar * v * r ≠ v / p.sr r ∧ 2 * mhbar * v * r ≠ 4 * (v / p.sr r)
      ∧ p.fdmFactor mhbar constF r v ≠ p.lnL (r ^ 2) v * p.Xfactor r v) :
    IsJacobian (rectForce fun m R z φ w => (p.callFDM mhbar constF .fresh m R z φ t w).2) q (p.jacFDM mhbar constF t g q) := by
  have hr : 0 < q 0 * q 0 + q 1 * q 1 + q 2 * q 2 := by nlinarith [mul_self_nonneg (q 2)]
  have hrp := sqrt_pos.2 hr
  have hvp := sqrt_pos.2 hv
  have hr2 : √(q 0 * q 0 + q 1 * q 1 + q 2 * q 2) ^ 2 = q 0 * q 0 + q 1 * q 1 + q 2 * q 2 := sq_sqrt hr.le
  have hv2 : √(q 3 * q 3 + q 4 * q 4 + q 5 * q 5) ^ 2 = q 3 * q 3 + q 4 * q 4 + q 5 * q 5 := sq_sqrt hv.le
  have hsr := hs.pos
  have h2 : (0 : ℝ) < √2 := sqrt_pos.2 two_pos
  have hC : 0 < p.lnL (√(q 0 * q 0 + q 1 * q 1 + q 2 * q 2) ^ 2) (√(q 3 * q 3 + q 4 * q 4 + q 5 * q 5))
      * p.Xfactor (√(q 0 * q 0 + q 1 * q 1 + q 2 * q 2)) (√(q 3 * q 3 + q 4 * q 4 + q 5 * q 5)) := by
    refine mul_pos (c_lnL_pos hL hl hrp hvp) ?_
    rw [CPar.Xfactor_eq]
    exact erfFac_pos (div_pos hvp (mul_pos h2 hsr))
  obtain ⟨d1, d2⟩ := CPar.ceff_deriv (mhbar := mhbar) (constF := constF) hs hL hrp hvp hC hreg
  have dC := CPar.ccdm_deriv hs hL hrp hvp
  refine jac_of_coef (C := fun r v => if p.lnL (r ^ 2) v * p.Xfactor r v = 0 then 0 else p.coefFDM mhbar constF r v) ?_ hR hv hm
    (d1.congr rfl rfl fun rc vc r' v' s h1 h2 h3 h4 => ?_) hg ?_
  · intro R z φ w hw _ hRp
    have hn : 0 < R * R + z * z := by nlinarith [mul_self_nonneg z]
    have e1 : √(R * R + z * z) ^ 2 = R * R + z * z := sq_sqrt hn.le
    have e2 : √(w 0 * w 0 + w 1 * w 1 + w 2 * w 2) ^ 2 = w 0 * w 0 + w 1 * w 1 + w 2 * w 2 := sq_sqrt hw.le
    have hwp := sqrt_pos.2 hw
    simp only [CPar.amplitudeFDM, CPar.amplitude, CPar.coefFDM, e1]
    rw [← e2]
    rw [sqrt_sq hwp.le]
    generalize p.lnL (R * R + z * z) (√(w 0 * w 0 + w 1 * w 1 + w 2 * w 2)) = L
    generalize p.Xfactor (√(R * R + z * z)) (√(w 0 * w 0 + w 1 * w 1 + w 2 * w 2)) = X
    generalize p.fdmFactor mhbar constF (√(R * R + z * z)) (√(w 0 * w 0 + w 1 * w 1 + w 2 * w 2)) = F
    by_cases hz : L * X = 0
    · rw [if_pos hz]
      rcases mul_eq_zero.1 hz with h | h <;> simp [h]
    · have hL0 : L ≠ 0 := left_ne_zero_of_mul hz
      have hX0 : X ≠ 0 := right_ne_zero_of_mul hz
      rw [if_neg hz]
      split_ifs <;> field_simp
  · have hc := (dC rc vc r' v' s h1 h2 h3 h4).continuousAt
    have := continuousAt_const.eventually_lt hc (by rw [h1, h2]; exact hC)
    filter_upwards [this] with u hu
    rw [if_neg hu.ne']
  · intro i c'
    simp only [if_neg hC.ne']
    rw [← d2]
    simp only [CPar.jacFDM]
    rw [if_neg (not_lt.2 hm.le)]
    simp only [Matrix.cons_val_zero, Matrix.cons_val_one, Matrix.cons_val, Fin.sum_univ_six, Matrix.of_apply]
    rw [← hv2]
    rw [sqrt_sq hvp.le]
    generalize p.ceff mhbar constF _ _ = cc
    generalize √(q 0 * q 0 + q 1 * q 1 + q 2 * q 2) = r at *
    generalize √(q 3 * q 3 + q 4 * q 4 + q 5 * q 5) = v at *
    fin_cases i <;> simp <;> field_simp <;> ring

namespace C76aux

/-- A C object with constant background density and dispersion and a variable Coulomb logarithm. -/
def witC : CPar where
  amp := 1
  minr2 := 0
  ms := 1
  rhm := 2
  gamma2 := 1
  lnLambda := -1
  ro := 0
  rf := 1
  cspl := fun _ => 1
  cspl' := fun _ => 0
  dens := fun _ _ _ _ => 1

def witq : Fin 6 → ℝ := ![1 / 2, 0, 0, 0, 1, 0]

theorem witq_at : witq 0 = 1 / 2 ∧ witq 1 = 0 ∧ witq 2 = 0 ∧ witq 3 = 0 ∧ witq 4 = 1 ∧ witq 5 = 0 := ⟨rfl, rfl, rfl, rfl, rfl, rfl⟩

theorem witr : √(witq 0 * witq 0 + witq 1 * witq 1 + witq 2 * witq 2) = 1 / 2 := by
  rw [show witq 0 * witq 0 + witq 1 * witq 1 + witq 2 * witq 2 = (1 / 2) ^ 2 by norm_num [witq_at], sqrt_sq (by norm_num)]

theorem witv : √(witq 3 * witq 3 + witq 4 * witq 4 + witq 5 * witq 5) = 1 := by
  rw [show witq 3 * witq 3 + witq 4 * witq 4 + witq 5 * witq 5 = 1 by norm_num [witq_at], sqrt_one]

theorem witS : witC.SplineOK (1 / 2) :=
  ⟨by norm_num [witC], by norm_num [witC], by norm_num [witC], fun d _ _ => hasDerivAt_const d 1, by norm_num [witC, CPar.sr]⟩

theorem witL : witC.LogOK 1 := ⟨by norm_num [witC], by norm_num [witC], fun _ => by norm_num [witC]⟩

end C76aux

example : IsJacobian (rectForce fun m R z φ w => (witC.call .fresh m R z φ 0 w).2) witq (witC.jac 0 0 witq) := by
  refine C76_jacobian (by norm_num [witq_at]) (by norm_num [witq_at]) (by norm_num [witq_at, witC])
    (by rw [witr]; exact witS) (by rw [witv]; exact witL) fun c c' s _ _ => ?_
  simpa [witC] using hasDerivAt_const s (1 : ℝ)

example : IsJacobian (rectForce fun m R z φ w => (witC.callFDM 1 (1 / 2) .fresh m R z φ 0 w).2) witq
    (witC.jacFDM 1 (1 / 2) 0 0 witq) := by
  refine C76_jacobian_FDM (by norm_num [witq_at]) (by norm_num [witq_at])
    (by norm_num [witq_at, witC]) (by rw [witr]; exact witS) (by rw [witv]; exact witL) (fun c c' s _ _ => ?_)
    (by norm_num [witC]) (fun h => by norm_num at h)
  simpa [witC] using hasDerivAt_const s (1 : ℝ)

end Verif

import Verif.Lemmas.ComposeEval
import Verif.Lemmas.Pot.Plummer

set_option autoImplicit false

/-! # C06: a combination evaluates to the sum of its members and stays consistent -/

noncomputable section
namespace Verif
open Compose

/-- In every state of every session, every method of every combination returns the sum of the
contributions of its members (`contrib`), whenever the arguments suffice for all members. -/
theorem C06_sum {m : Nat} {h : Heap} (k : Reachable m h) {r : Ref} {c : Comp} (hr : h[r]? = some (.comp c))
    (f : Fn) (R z t : ℝ) (φ : Option ℝ) (v : Option Vel) (n : Nat)
    (hφ : φ = none → ∀ s ∈ c.members, ∀ l, IsLeaf h s l → l.nonAxi ≠ some true)
    (hv : v = none → f.isForce = true → ∀ s ∈ c.members, ∀ l, IsLeaf h s l → l.dissipative = false) :
    call h f R z φ t v (n + 2) r =
      .ok (c.members.map (contrib h f R z (φ.getD 0) t (v.getD (0, 0, 0)))).sum := by
  have el : leavesOf h r = c.members := by simp [leavesOf, hr]
  rw [call_comp k.wf hr ⟨by rw [el]; exact hφ, by rw [el]; exact hv⟩, total, el]

/-- Arithmetic expressions over existing objects. -/
inductive PotExpr
  | obj (r : Ref)
  | add (a b : PotExpr)
  | mul (k : ℝ) (a : PotExpr)

/-- Evaluation of the expression by the interpreter: the operators from left to right. -/
def PotExpr.build (n : Nat) : PotExpr → Heap → Except Err Ref × Heap
  | .obj r, h => (.ok r, h)
  | .add a b, h =>
    match a.build n h with
    | (.error e, h') => (.error e, h')
    | (.ok ra, h') =>
      match b.build n h' with
      | (.error e, h'') => (.error e, h'')
      | (.ok rb, h'') => Compose.add n ra (.ref rb) h''
  | .mul k a, h =>
    match a.build n h with
    | (.error e, h') => (.error e, h')
    | (.ok ra, h') => Compose.mul n ra (some k) h'

/-- The meaning of the expression: sums and multiples of the values `x r` of the objects. -/
def PotExpr.denote (x : Ref → ℝ) : PotExpr → ℝ
  | .obj r => x r
  | .add a b => a.denote x + b.denote x
  | .mul k a => k * a.denote x

/-- All objects named exist; `P` holds of their dimension. -/
def PotExpr.All (h : Heap) (P : Nat → Prop) : PotExpr → Prop
  | .obj r => ∃ o, h[r]? = some o ∧ P o.dim
  | .add a b => a.All h P ∧ b.All h P
  | .mul _ a => a.All h P

theorem PotExpr.All.grow {h h' : Heap} (g : Grow h h') {P : Nat → Prop} {e : PotExpr} (k : e.All h P) :
    e.All h' P := by
  induction e with
  | obj r => obtain ⟨o, ho, p⟩ := k; exact ⟨o, g.keep r o ho, p⟩
  | add a b iha ihb => exact ⟨iha k.1, ihb k.2⟩
  | mul _ a ih => exact ih k

theorem PotExpr.denote_congr {h : Heap} {P : Nat → Prop} {x y : Ref → ℝ}
    (hxy : ∀ r o, h[r]? = some o → x r = y r) {e : PotExpr} (k : e.All h P) : e.denote x = e.denote y := by
  induction e with
  | obj r => obtain ⟨o, ho, p⟩ := k; exact hxy r o ho
  | add a b iha ihb => rw [denote, denote, iha k.1, ihb k.2]
  | mul _ a ih => rw [denote, denote, ih k]

/-- Every expression built from existing objects with `+` and `*`, of any shape and depth, leaves all
existing objects unchanged and evaluates to the same arithmetic combination of their values: everywhere
when all objects have the same dimension, in the plane (`z = 0`, `v_z = 0`) when 2D and 3D objects are
mixed. -/
theorem C06_total {n : Nat} {f : Fn} {R z φ t : ℝ} {v : Vel} (P : Nat → Prop)
    (hP : (∃ d, ∀ k, P k → k = d) ∨ (z = 0 ∧ v.2.2 = 0)) :
    ∀ (e : PotExpr) {h h' : Heap} {r : Ref}, WF h → e.All h P → e.build n h = (.ok r, h') →
      Grow h h' ∧ total h' f R z φ t v r = e.denote (total h f R z φ t v) ∧
        (∃ o, h'[r]? = some o ∧ ∀ d, (∀ k, P k → k = d) → o.dim = d)
  | .obj r, h, h', r', w, ⟨o, ho, p⟩, e => by
    simp only [PotExpr.build] at e
    injection e with e1 e2
    injection e1 with e1
    subst e1 e2
    exact ⟨.refl w, rfl, o, ho, fun d hd => hd _ p⟩
  | .add a b, h, h', r, w, ⟨ka, kb⟩, e => by
    simp only [PotExpr.build] at e
    rcases ea : a.build n h with ⟨(x | ra), h1⟩
    · rw [ea] at e; cases e
    · rw [ea] at e
      simp only at e
      obtain ⟨g1, va, oa, hoa, da⟩ := C06_total P hP a w ka ea
      rcases eb : b.build n h1 with ⟨(x | rb), h2⟩
      · rw [eb] at e; cases e
      · rw [eb] at e
        simp only at e
        obtain ⟨g2, vb, ob, hob, db⟩ := C06_total P hP b g1.wf (kb.grow g1) eb
        obtain ⟨dim, pa, pb, A, B, g3, el, ⟨o, ho, hdim⟩, hx⟩ := add_result g2.wf e
        have hoa2 := g2.keep ra oa hoa
        have ddim : ∀ d, (∀ k, P k → k = d) → dim = d := by
          intro d hd
          rcases hx with ⟨o', ho', q⟩ | ⟨o', ho', q⟩
          · rw [hoa2] at ho'
            injection ho' with ho'
            subst ho'
            rw [← q]; exact da d hd
          · rw [hob] at ho'
            injection ho' with ho'
            subst ho'
            rw [← q]; exact db d hd
        refine ⟨(g1.trans g2).trans g3, ?_, o, ho, fun d hd => by rw [hdim]; exact ddim d hd⟩
        have part : ∀ {s : Ref} {ps : List Ref} {os : Obj}, h2[s]? = some os →
            (∀ d, (∀ k, P k → k = d) → os.dim = d) → Operand h2 h' dim s ps →
            (ps.map (contrib h' f R z φ t v)).sum = total h2 f R z φ t v s := by
          intro s ps os hs dd op
          rcases op with ⟨-, rfl⟩ | ⟨⟨o', ho', h3⟩, h2', F⟩
          · exact g3.sum (leavesOf_get g2.wf hs)
          · rcases hP with ⟨d, hd⟩ | ⟨rfl, hvz⟩
            · rw [hs] at ho'
              injection ho' with ho'
              subst ho'
              have := dd d hd
              have := ddim d hd
              omega
            · rw [total, sum_image (g := Leaf.toPlanar) (k := 1) (R := R) (z := 0) (φ := φ) (t := t) (v := v)
                ?_ F, one_mul]
              intro l
              refine ⟨rfl, ?_⟩
              simp only [Leaf.toPlanar, one_mul]
              have : (v.1, v.2.1, (0 : ℝ)) = v := by rw [← hvz]
              rw [this]
        rw [total, el, List.map_append, List.sum_append, part hoa2 da A, part hob db B,
          PotExpr.denote, g2.total g1.wf hoa, va, vb,
          PotExpr.denote_congr (fun r o ho => g1.total w ho) kb]
  | .mul k a, h, h', r, w, ka, e => by
    simp only [PotExpr.build] at e
    rcases ea : a.build n h with ⟨(x | ra), h1⟩
    · rw [ea] at e; cases e
    · rw [ea] at e
      simp only [Compose.mul] at e
      obtain ⟨g1, va, oa, hoa, da⟩ := C06_total P hP a w ka ea
      obtain ⟨g2, F, -, hd⟩ := mulRef_result g1.wf e
      obtain ⟨o, ho, ho'⟩ := hd oa.dim ⟨oa, hoa, rfl⟩
      refine ⟨g1.trans g2, ?_, o, ho, fun d hd => by rw [ho']; exact da d hd⟩
      rw [PotExpr.denote, ← va]
      exact sum_image (g := fun l => l.mul k) (fun l => ⟨rfl, by simp only [Leaf.mul]; ring⟩) F

/-- The value returned by the interpreter for such an expression. -/
theorem C06_expression {m n : Nat} {h h' : Heap} (k : Reachable m h) (e : PotExpr) {r : Ref} (P : Nat → Prop)
    (all : e.All h P) (b : e.build n h = (.ok r, h')) (f : Fn) (R z φ t : ℝ) (v : Vel)
    (hP : (∃ d, ∀ k, P k → k = d) ∨ (z = 0 ∧ v.2.2 = 0))
    (hf : ∀ l, IsLeaf h' r l → l.dissipative = true → f.isForce = true) (j : Nat) :
    call h' f R z (some φ) t (some v) (j + 2) r = .ok (e.denote (total h f R z φ t v)) ∧
      ∀ (s : Ref) o, h[s]? = some o → h'[s]? = some o := by
  obtain ⟨g, e1, o, ho, -⟩ := C06_total (f := f) (R := R) (z := z) (φ := φ) (t := t) (v := v) P hP e k.wf all b
  have en : Enough h' f (some φ) (some v) r := ⟨fun q => (nomatch q), fun q => (nomatch q)⟩
  refine ⟨?_, g.keep⟩
  rw [← e1]
  cases o with
  | leaf l => exact call_single ho (hf l ho) en
  | comp c => exact call_comp g.wf ho en

/-- The record of methods of a single object, as seen by the specification. -/
def Compose.Leaf.pot (l : Leaf) : Pot where
  val := fun R z φ t => l.amp * l.meth .val R z φ t (0, 0, 0)
  Rforce := fun R z φ t => l.amp * l.meth .Rforce R z φ t (0, 0, 0)
  zforce := fun R z φ t => l.amp * l.meth .zforce R z φ t (0, 0, 0)
  phitorque := fun R z φ t => l.amp * l.meth .phitorque R z φ t (0, 0, 0)
  R2deriv := fun R z φ t => l.amp * l.meth .R2deriv R z φ t (0, 0, 0)
  z2deriv := fun R z φ t => l.amp * l.meth .z2deriv R z φ t (0, 0, 0)
  Rzderiv := fun R z φ t => l.amp * l.meth .Rzderiv R z φ t (0, 0, 0)
  phi2deriv := fun R z φ t => l.amp * l.meth .phi2deriv R z φ t (0, 0, 0)
  Rphideriv := fun R z φ t => l.amp * l.meth .Rphideriv R z φ t (0, 0, 0)
  phizderiv := fun R z φ t => l.amp * l.meth .phizderiv R z φ t (0, 0, 0)
  dens := fun R z φ t => l.amp * l.meth .dens R z φ t (0, 0, 0)

/-- What a user reads off an object: the returned value (0 when an exception is raised). -/
def Compose.read (h : Heap) (r : Ref) (f : Fn) (R z φ t : ℝ) : ℝ :=
  match call h f R z (some φ) t none 2 r with
  | .ok x => x
  | .error _ => 0

/-- The record of methods of any object. -/
def Compose.potOf (h : Heap) (r : Ref) : Pot where
  val := Compose.read h r .val
  Rforce := Compose.read h r .Rforce
  zforce := Compose.read h r .zforce
  phitorque := Compose.read h r .phitorque
  R2deriv := Compose.read h r .R2deriv
  z2deriv := Compose.read h r .z2deriv
  Rzderiv := Compose.read h r .Rzderiv
  phi2deriv := Compose.read h r .phi2deriv
  Rphideriv := Compose.read h r .Rphideriv
  phizderiv := Compose.read h r .phizderiv
  dens := Compose.read h r .dens

theorem Compose.read_comp {h : Heap} (w : WF h) {r : Ref} {c : Comp} (hr : h[r]? = some (.comp c)) {ls : List Leaf}
    (F : List.Forall₂ (fun s l => IsLeaf h s l ∧ l.dissipative = false) c.members ls) (f : Fn) (R z φ t : ℝ) :
    Compose.read h r f R z φ t = (ls.map fun l => l.amp * l.meth f R z φ t (0, 0, 0)).sum := by
  have el : leavesOf h r = c.members := by simp [leavesOf, hr]
  have nd : ∀ s ∈ c.members, ∀ l, IsLeaf h s l → l.dissipative = false := by
    generalize c.members = rs at F
    induction F with
    | nil => intro s hs; cases hs
    | cons x F ih =>
      intro s hs l hl
      rcases List.mem_cons.1 hs with rfl | q
      · rw [isLeaf_unique hl x.1]; exact x.2
      · exact ih s q l hl
  unfold Compose.read
  rw [call_comp w hr ⟨fun q => (by cases q), fun _ _ => by rw [el]; exact nd⟩]
  simp only [total, el, Option.getD_some, Option.getD_none]
  clear nd el hr
  generalize c.members = rs at F
  induction F with
  | nil => rfl
  | cons x F ih =>
    rw [List.map_cons, List.sum_cons, List.map_cons, List.sum_cons, ih, contrib_leaf x.1, x.2]
    simp

theorem Compose.potOf_sum {h : Heap} (w : WF h) {r : Ref} {c : Comp} (hr : h[r]? = some (.comp c)) {ls : List Leaf}
    (F : List.Forall₂ (fun s l => IsLeaf h s l ∧ l.dissipative = false) c.members ls) :
    Compose.potOf h r = Pot.sum (ls.map Leaf.pot) := by
  have e : ∀ (ls : List Leaf), Pot.sum (ls.map Leaf.pot) =
      { val := fun R z φ t => (ls.map fun l => l.amp * l.meth .val R z φ t (0, 0, 0)).sum
        Rforce := fun R z φ t => (ls.map fun l => l.amp * l.meth .Rforce R z φ t (0, 0, 0)).sum
        zforce := fun R z φ t => (ls.map fun l => l.amp * l.meth .zforce R z φ t (0, 0, 0)).sum
        phitorque := fun R z φ t => (ls.map fun l => l.amp * l.meth .phitorque R z φ t (0, 0, 0)).sum
        R2deriv := fun R z φ t => (ls.map fun l => l.amp * l.meth .R2deriv R z φ t (0, 0, 0)).sum
        z2deriv := fun R z φ t => (ls.map fun l => l.amp * l.meth .z2deriv R z φ t (0, 0, 0)).sum
        Rzderiv := fun R z φ t => (ls.map fun l => l.amp * l.meth .Rzderiv R z φ t (0, 0, 0)).sum
        phi2deriv := fun R z φ t => (ls.map fun l => l.amp * l.meth .phi2deriv R z φ t (0, 0, 0)).sum
        Rphideriv := fun R z φ t => (ls.map fun l => l.amp * l.meth .Rphideriv R z φ t (0, 0, 0)).sum
        phizderiv := fun R z φ t => (ls.map fun l => l.amp * l.meth .phizderiv R z φ t (0, 0, 0)).sum
        dens := fun R z φ t => (ls.map fun l => l.amp * l.meth .dens R z φ t (0, 0, 0)).sum } := by
    intro ls
    induction ls with
    | nil => rfl
    | cons l ls ih =>
      rw [List.map_cons]
      show Pot.add (Leaf.pot l) (Pot.sum (ls.map Leaf.pot)) = _
      rw [ih]
      simp only [Pot.add, Leaf.pot, List.map_cons, List.sum_cons]
  rw [e ls, Compose.potOf]
  congr 1 <;> (funext R z φ t; exact Compose.read_comp w hr F _ R z φ t)

/-- A combination of potentials that satisfy the gradient, Hessian and Poisson relations on an open
region satisfies them there too: any number of members, any session that produced it. -/
theorem C06_consistent {m : Nat} {h : Heap} (k : Reachable m h) {r : Ref} {c : Comp}
    (hr : h[r]? = some (.comp c)) (D : ℝ → ℝ → ℝ → Prop) (o : AxisOpen D)
    (hm : ∀ s ∈ c.members, ∃ l, IsLeaf h s l ∧ l.dissipative = false ∧ Consistent l.pot D) :
    Consistent (Compose.potOf h r) D := by
  have : ∃ ls : List Leaf, List.Forall₂ (fun s l => IsLeaf h s l ∧ l.dissipative = false) c.members ls ∧
      ∀ l ∈ ls, Consistent l.pot D := by
    generalize c.members = rs at hm
    induction rs with
    | nil => exact ⟨[], .nil, by simp⟩
    | cons s rs ih =>
      obtain ⟨ls, F, q⟩ := ih fun s hs => hm s (by simp [hs])
      obtain ⟨l, hl, hd, hc⟩ := hm s (by simp)
      refine ⟨l :: ls, .cons ⟨hl, hd⟩ F, ?_⟩
      intro l' hl'
      rcases List.mem_cons.1 hl' with rfl | q'
      · exact hc
      · exact q l' q'
  obtain ⟨ls, F, q⟩ := this
  rw [Compose.potOf_sum k.wf hr F]
  refine .sum o fun P hP => ?_
  obtain ⟨l, hl, rfl⟩ := List.mem_map.1 hP
  exact q l hl

/-! ### A session that meets the hypotheses -/

/-- A Plummer sphere as an object. -/
def Compose.plummerLeaf (amp b : ℝ) : Leaf where
  dim := 3
  nonAxi := some false
  dissipative := false
  hasC := true
  hasC_dxdv := true
  hasC_dxdv3d := false
  hasC_dens := true
  hasC_planar := true
  amp := amp
  units := defaultUnits
  meth := fun f R z φ t _ => match f with
    | .val => (Plummer.pot b).val R z φ t
    | .Rforce => (Plummer.pot b).Rforce R z φ t
    | .zforce => (Plummer.pot b).zforce R z φ t
    | .phitorque => (Plummer.pot b).phitorque R z φ t
    | .R2deriv => (Plummer.pot b).R2deriv R z φ t
    | .z2deriv => (Plummer.pot b).z2deriv R z φ t
    | .Rzderiv => (Plummer.pot b).Rzderiv R z φ t
    | .phi2deriv => (Plummer.pot b).phi2deriv R z φ t
    | .Rphideriv => (Plummer.pot b).Rphideriv R z φ t
    | .phizderiv => (Plummer.pot b).phizderiv R z φ t
    | .dens => (Plummer.pot b).dens R z φ t
    | .mass => 0

/-- `[p, q, CompositePotential(p, q)]` for two Plummer spheres is reachable. -/
theorem Compose.plummerPair (m : Nat) : ∃ c : Comp, c.members = [0, 1] ∧
    Reachable m [.leaf (plummerLeaf 1 1), .leaf (plummerLeaf 2 3), .comp c] := by
  have r1 : Reachable m [.leaf (plummerLeaf 1 1), .leaf (plummerLeaf 2 3)] :=
    .step (.new (plummerLeaf 2 3)) (.step (.new (plummerLeaf 1 1)) .start (.inr ⟨.inr rfl, rfl⟩))
      (.inr ⟨.inr rfl, rfl⟩)
  obtain ⟨c, e, hc, -⟩ := mkComp_total r1.wf (n := m) (dim := 3) (rs := [0, 1]) (by simp)
    (by
      intro r hr
      simp only [List.mem_cons, List.not_mem_nil, or_false] at hr
      rcases hr with rfl | rfl
      · exact ⟨plummerLeaf 1 1, rfl, rfl⟩
      · exact ⟨plummerLeaf 2 3, rfl, rfl⟩)
    (by
      intro s hs o p ho hp
      simp only [List.mem_singleton] at hs
      subst hs
      simp only [List.getElem?_cons_zero, List.getElem?_cons_succ, Option.some.injEq] at ho hp
      subst ho hp
      exact ⟨fun q => (nomatch q), fun q => (nomatch q)⟩)
  refine ⟨c, hc, ?_⟩
  have := Reachable.step (.combine 3 ([0, 1].map Val.ref)) r1 (by simp [Safe])
  rw [exec, e] at this
  exact this

/-- Non-vacuity of `C06_sum` and `C06_consistent`: the sum of two Plummer spheres of different mass and
scale satisfies the gradient, Hessian and Poisson relations everywhere. -/
example (m : Nat) : ∃ h : Heap, Reachable m h ∧ Consistent (Compose.potOf h 2) (fun _ _ _ => True) ∧
    ∀ R z φ t, Compose.read h 2 .val R z φ t =
      1 * (Plummer.pot 1).val R z φ t + 2 * (Plummer.pot 3).val R z φ t := by
  obtain ⟨c, hc, k⟩ := Compose.plummerPair m
  refine ⟨_, k, ?_, ?_⟩
  · refine C06_consistent k (c := c) rfl _ ⟨fun _ _ _ _ => by simp, fun _ _ _ _ => by simp, fun _ _ _ _ => by simp⟩ ?_
    intro s hs
    rw [hc] at hs
    simp only [List.mem_cons, List.not_mem_nil, or_false] at hs
    rcases hs with rfl | rfl
    · exact ⟨plummerLeaf 1 1, rfl, rfl, ((Plummer.consistent 1).mono fun _ _ _ _ => by positivity).scale 1⟩
    · exact ⟨plummerLeaf 2 3, rfl, rfl, ((Plummer.consistent 3).mono fun _ _ _ _ => by positivity).scale 2⟩
  · intro R z φ t
    rw [Compose.read_comp k.wf (c := c) rfl (ls := [plummerLeaf 1 1, plummerLeaf 2 3]) (by
      rw [hc]; exact .cons ⟨rfl, rfl⟩ (.cons ⟨rfl, rfl⟩ .nil))]
    simp [plummerLeaf]

/-- Non-vacuity of `C06_expression`: `p + 3*q` for the two Plummer spheres. -/
example (m : Nat) : ∃ (h h' : Heap) (r : Ref), Reachable m h ∧
    (PotExpr.add (.obj 0) (.mul 3 (.obj 1))).build 1 h = (.ok r, h') ∧
    call h' .val 1 0 (some 0) 0 (some (0, 0, 0)) 2 r =
      .ok (total h .val 1 0 0 0 (0, 0, 0) 0 + 3 * total h .val 1 0 0 0 (0, 0, 0) 1) := by
  obtain ⟨c, hc, k⟩ := Compose.plummerPair m
  set h : Heap := [.leaf (plummerLeaf 1 1), .leaf (plummerLeaf 2 3), .comp c] with hh
  have em : Compose.mul 1 1 (some 3) h = (.ok 3, h ++ [.leaf ((plummerLeaf 2 3).mul 3)]) := rfl
  have w1 : WF (h ++ [.leaf ((plummerLeaf 2 3).mul 3)]) := k.wf.append_leaf (.inr ⟨.inr rfl, rfl⟩)
  obtain ⟨d, e, -⟩ := add_total w1 (n := 0) (a := 0) (b := 3) (l := plummerLeaf 1 1)
    (l' := (plummerLeaf 2 3).mul 3) rfl rfl rfl ⟨fun q => (nomatch q), fun q => (nomatch q)⟩
  have eb : (PotExpr.add (.obj 0) (.mul 3 (.obj 1))).build 1 h =
      (.ok 4, h ++ [.leaf ((plummerLeaf 2 3).mul 3)] ++ [.comp d]) := by
    simp only [PotExpr.build, em]
    exact e
  refine ⟨h, _, 4, k, eb, ?_⟩
  exact (C06_expression k (.add (.obj 0) (.mul 3 (.obj 1))) (fun d => d = 3) ⟨⟨_, rfl, rfl⟩, ⟨_, rfl, rfl⟩⟩ eb .val 1 0 0 0 (0, 0, 0)
    (.inl ⟨3, fun _ h => h⟩) (fun l hl => by simp [IsLeaf, hh] at hl) 0).1

end Verif

import Verif.Props.C06

set_option autoImplicit false

/-! # C07: scaling by a number -/

noncomputable section
namespace Verif
open Compose

theorem Compose.call_mul_leaf {l : Leaf} {k : ℝ} {f : Fn} {R z t : ℝ} {φ : Option ℝ} {v : Option Vel} :
    (l.mul k).call f R z φ t v = (l.call f R z φ t v).map (k * ·) := by
  have e : (l.mul k).amp * (l.mul k).meth f R z (φ.getD 0) t (v.getD (0, 0, 0)) =
      k * (l.amp * l.meth f R z (φ.getD 0) t (v.getD (0, 0, 0))) := by simp only [Leaf.mul]; ring
  unfold Leaf.call
  rw [e, show (l.mul k).dissipative = l.dissipative from rfl, show (l.mul k).nonAxi = l.nonAxi from rfl]
  cases hd : l.dissipative <;> cases hf : f.isForce <;> cases hn : l.nonAxi.getD false <;> cases φ <;> cases v <;>
    rfl

theorem Compose.mapM_mul {h h' : Heap} {k : ℝ} {f : Fn} {R z t : ℝ} {φ : Option ℝ} {v : Option Vel} {n : Nat}
    {a b : List Ref} (F : List.Forall₂ (Image (Leaf.mul · k) h h') a b) :
    (b.filter (kept h' f)).mapM (call h' f R z φ t v (n + 1)) =
      ((a.filter (kept h f)).mapM (call h f R z φ t v (n + 1))).map (List.map (k * ·)) := by
  induction F with
  | nil => rfl
  | cons x F ih =>
    obtain ⟨l, hl, hl'⟩ := x
    rw [List.filter_cons, List.filter_cons, kept_leaf hl, kept_leaf hl',
      show ((fun x : Leaf => x.mul k) l).dissipative = l.dissipative from rfl]
    by_cases hk : (f.isForce || !l.dissipative) = true
    · rw [if_pos hk, if_pos hk]
      rw [List.mapM_cons, List.mapM_cons, ih, call_leaf hl, call_leaf hl']
      show ((l.mul k).call f R z φ t v >>= _) = _
      rw [Compose.call_mul_leaf]
      cases l.call f R z φ t v with
      | error e => rfl
      | ok x =>
        cases List.mapM (call h f R z φ t v (n + 1)) (List.filter (kept h f) _) with
        | error e => rfl
        | ok xs => rfl
    · rw [if_neg hk, if_neg hk]
      exact ih

/-- `k * pot`: whatever the object (single or combination), every method with any arguments returns `k`
times what the original returns, and raises exactly when the original raises. No existing object is
changed; the result is a new object. -/
theorem C07_mul {m n : Nat} {h h' : Heap} (q : Reachable m h) {a r : Ref} {k : ℝ}
    (e : Compose.mul n a (some k) h = (.ok r, h')) :
    (∀ (f : Fn) (R z t : ℝ) (φ : Option ℝ) (v : Option Vel) (j : Nat),
      call h' f R z φ t v (j + 2) r = (call h f R z φ t v (j + 2) a).map (k * ·)) ∧
    (∀ (s : Ref) o, h[s]? = some o → h'[s]? = some o) ∧ h[r]? = none := by
  obtain ⟨g, F, fresh, hd⟩ := mulRef_result q.wf e
  refine ⟨fun f R z t φ v j => ?_, g.keep, fresh⟩
  cases n with
  | zero => simp only [Compose.mul, mulRef] at e; cases e
  | succ n =>
  cases ha : h[a]? with
  | none => simp only [Compose.mul, mulRef, ha] at e; cases e
  | some o =>
    cases o with
    | leaf l =>
      simp only [Compose.mul, mulRef, ha] at e
      injection e with e1 e2
      injection e1 with e1
      subst e1 e2
      rw [call_leaf (l := l) ha, call_leaf (l := l.mul k) (by simp [IsLeaf]), Compose.call_mul_leaf]
    | comp c =>
      have hr : ∃ c', h'[r]? = some (.comp c') := by
        simp only [Compose.mul, mulRef, ha] at e
        rcases hm : mapRefs (mulRef (n + 1) k n) c.members h with ⟨(x | rs), h1⟩
        · rw [hm] at e; cases e
        · rw [hm] at e
          have w1 : WF h1 := by
            have := mapRefs_grow (g := mulRef (n + 1) k n) (fun h r w => mulRef_grow _ k n h r w) c.members q.wf
            rw [hm] at this
            exact this.wf
          rcases mkComp_spec w1 (n := n + 1) (args := rs.map Val.ref) (q.wf.comp a c ha).dims with
            ⟨x, hx⟩ | ⟨r', rs', e1, -, md, -⟩
          · simp only [hx] at e; cases e
          · simp only at e
            rw [e] at e1 md
            injection e1 with e1
            subst e1
            obtain ⟨c', hc', -⟩ := md.made
            exact ⟨c', hc'⟩
      obtain ⟨c', hc'⟩ := hr
      simp only [leavesOf, ha, hc'] at F
      have M := Compose.mapM_mul (f := f) (R := R) (z := z) (φ := φ) (t := t) (v := v) (n := j) F
      rw [call, call]
      simp only [ha, hc']
      show ((c'.members.filter (kept h' f)).mapM _ >>= _) = Except.map _ ((c.members.filter (kept h f)).mapM _ >>= _)
      rw [M]
      cases (c.members.filter (kept h f)).mapM (call h f R z φ t v (j + 1)) with
      | error e => rfl
      | ok xs =>
        show Except.ok _ = Except.ok _
        rw [List.sum_map_mul_left]
        simp

/-- `pot / k` scales by `1 / k`. -/
theorem C07_div {m n : Nat} {h h' : Heap} (q : Reachable m h) {a r : Ref} {k : ℝ}
    (e : Compose.div n a k h = (.ok r, h')) :
    k ≠ 0 ∧ (∀ (f : Fn) (R z t : ℝ) (φ : Option ℝ) (v : Option Vel) (j : Nat),
      call h' f R z φ t v (j + 2) r = (call h f R z φ t v (j + 2) a).map (· / k)) ∧
    (∀ (s : Ref) o, h[s]? = some o → h'[s]? = some o) ∧ h[r]? = none := by
  unfold Compose.div at e
  by_cases hk : k = 0
  · rw [if_pos hk] at e; cases e
  · rw [if_neg hk] at e
    obtain ⟨p, keep, fresh⟩ := C07_mul q e
    refine ⟨hk, fun f R z t φ v j => ?_, keep, fresh⟩
    rw [p]
    congr 1
    funext x
    ring

/-- Multiplying a single object always succeeds. -/
theorem C07_single_succeeds {m n : Nat} {h : Heap} (_q : Reachable m h) {a : Ref} {l : Leaf} (ha : IsLeaf h a l)
    (k : ℝ) : ∃ r h', Compose.mul (n + 1) a (some k) h = (.ok r, h') :=
  ⟨_, _, mulRef_leaf ha⟩

theorem Compose.mapRefs_mul_ok {N n : Nat} {k : ℝ} : ∀ (rs : List Ref) {h : Heap}, WF h →
    (∀ r ∈ rs, ∃ l, IsLeaf h r l) → ∃ rs' h', mapRefs (mulRef N k (n + 1)) rs h = (.ok rs', h')
  | [], h, _, _ => ⟨[], h, rfl⟩
  | r :: rs, h, w, q => by
    obtain ⟨l, hl⟩ := q r (by simp)
    have g := Grow.leaf w (Leaf.mul_valid (w.leaf r l hl) k)
    obtain ⟨rs', h', e⟩ := Compose.mapRefs_mul_ok (N := N) (n := n) (k := k) rs g.wf fun s hs => by
      obtain ⟨l', hl'⟩ := q s (by simp [hs])
      exact ⟨l', g.keep s _ hl'⟩
    refine ⟨h.length :: rs', h', ?_⟩
    rw [mapRefs, mulRef_leaf hl]
    simp only [e]

/-- Multiplying a combination succeeds when its members' units are compatible with those of the first
(they are right after construction; item 0 can be replaced without a check, see
`C07_after_assignment_fails`). -/
theorem C07_combination_succeeds {m n : Nat} {h : Heap} (q : Reachable m h) {a : Ref} {c : Comp}
    (ha : h[a]? = some (.comp c)) (cp : allCompatible h c.members) (k : ℝ) :
    ∃ r h', Compose.mul (n + 2) a (some k) h = (.ok r, h') := by
  obtain ⟨rs, h1, e⟩ := Compose.mapRefs_mul_ok (N := n + 2) (n := n) (k := k) c.members q.wf
    (members_leaf q.wf ha)
  obtain ⟨g, F⟩ := mapRefs_result (g := (Leaf.mul · k)) (Q := fun _ => True) (fun k => mulRef_leaf k)
    (fun _ v => Leaf.mul_valid v k) c.members q.wf (fun s hs => by
      obtain ⟨l, hl⟩ := members_leaf q.wf ha s hs
      exact ⟨l, hl, trivial⟩) e
  have hcomp := q.wf.comp a c ha
  have hdim : ∀ r ∈ rs, ∃ l, IsLeaf h1 r l ∧ l.dim = c.dim := by
    have hf := hcomp.flat
    clear e cp
    generalize c.members = ms at F hf
    induction F with
    | nil => intro r hr; cases hr
    | cons x F ih =>
      intro r hr
      obtain ⟨l, hl, hl'⟩ := x
      rcases List.mem_cons.1 hr with rfl | p
      · obtain ⟨l2, hl2, hd2⟩ := hf _ List.mem_cons_self
        exact ⟨_, hl', (congrArg Leaf.dim (isLeaf_unique hl hl2)).trans hd2⟩
      · exact ih (fun s hs => hf s (by simp [hs])) r p
  have hcp : allCompatible h1 rs := by
    clear e hcomp hdim
    generalize c.members = ms at F cp
    cases F with
    | nil => trivial
    | @cons x y xs ys X F =>
      obtain ⟨l, hl, hl'⟩ := X
      intro s hs o p ho hp
      have key : ∀ s ∈ ys, ∃ s' ∈ xs, ∃ l, IsLeaf h s' l ∧ IsLeaf h1 s (l.mul k) := by
        clear cp hs
        induction F with
        | nil => intro s hs; cases hs
        | cons X F ih =>
          intro s hs
          obtain ⟨l, a, b⟩ := X
          rcases List.mem_cons.1 hs with rfl | p
          · exact ⟨_, by simp, l, a, b⟩
          · obtain ⟨s', h1, h2⟩ := ih s p
            exact ⟨s', by simp [h1], h2⟩
      obtain ⟨s', hs', l2, a2, b2⟩ := key s hs
      have := cp s' hs' _ _ hl a2
      unfold IsLeaf at hl' b2
      rw [hl'] at ho
      rw [b2] at hp
      injection ho with ho
      injection hp with hp
      subst ho hp
      exact this
  obtain ⟨c', e2, -⟩ := mkComp_total g.wf (n := n + 1) hcomp.dims hdim hcp
  refine ⟨h1.length, h1 ++ [.comp c'], ?_⟩
  simp only [Compose.mul]
  rw [mulRef]
  simp only [ha, e]
  exact e2

/-- The condition is necessary. -/
theorem C07_combination_needs {m n : Nat} {h h' : Heap} (q : Reachable m h) {a r : Ref} {c : Comp}
    (ha : h[a]? = some (.comp c)) {k : ℝ} (e : Compose.mul n a (some k) h = (.ok r, h')) :
    allCompatible h c.members := by
  cases n with
  | zero => simp only [Compose.mul, mulRef] at e; cases e
  | succ n =>
    simp only [Compose.mul, mulRef, ha] at e
    cases hne : c.members with
    | nil => trivial
    | cons s0 ss0 =>
    rcases hm : mapRefs (mulRef (n + 1) k n) c.members h with ⟨(x | rs), h1⟩
    · rw [hm] at e; cases e
    · rw [hm] at e
      simp only at e
      cases n with
      | zero =>
        rw [hne, mapRefs] at hm
        simp only [mulRef] at hm
        cases hm
      | succ n =>
        obtain ⟨g, F⟩ := mapRefs_result (g := (Leaf.mul · k)) (Q := fun _ => True) (fun k => mulRef_leaf k)
          (fun _ v => Leaf.mul_valid v k) c.members q.wf (fun s hs => by
            obtain ⟨l, hl⟩ := members_leaf q.wf ha s hs
            exact ⟨l, hl, trivial⟩) hm
        rcases mkComp_spec g.wf (n := n + 1 + 1) (args := rs.map Val.ref) (q.wf.comp a c ha).dims with
          ⟨x, hx⟩ | ⟨r', rs', -, e2, -, cp⟩
        · rw [hx] at e; cases e
        · rw [leavesVals_refs (image_right F)] at e2
          have := map_some_inj e2
          subst this
          rw [hne] at F
          cases F with
          | @cons x y xs ys X F =>
            obtain ⟨l, hl, hl'⟩ := X
            intro s hs o p ho hp
            have key : ∀ s ∈ ss0, ∃ s' ∈ ys, ∃ l, IsLeaf h s l ∧ IsLeaf h1 s' (l.mul k) := by
              clear cp hs hne hm e e2
              induction F with
              | nil => intro s hs; cases hs
              | cons X F ih =>
                intro s hs
                obtain ⟨l, a, b⟩ := X
                rcases List.mem_cons.1 hs with rfl | p
                · exact ⟨_, by simp, l, a, b⟩
                · obtain ⟨s', h1, h2⟩ := ih s p
                  exact ⟨s', by simp [h1], h2⟩
            obtain ⟨s', hs', l2, a2, b2⟩ := key s hs
            have := cp s' hs' _ _ hl' b2
            unfold IsLeaf at hl a2
            rw [hl] at ho
            rw [a2] at hp
            injection ho with ho
            injection hp with hp
            subst ho hp
            exact this

/-- Scaling distributes over `+`: `k*(a+b)` and `k*a + k*b` have the same value in every method. -/
theorem C07_distributes {m n : Nat} {h h1 h2 : Heap} (q : Reachable m h) (a b : PotExpr) (k : ℝ) {r1 r2 : Ref}
    (P : Nat → Prop) (pa : a.All h P) (pb : b.All h P)
    (e1 : (PotExpr.mul k (.add a b)).build n h = (.ok r1, h1))
    (e2 : (PotExpr.add (.mul k a) (.mul k b)).build n h = (.ok r2, h2))
    (f : Fn) (R z φ t : ℝ) (v : Vel) (hP : (∃ d, ∀ k, P k → k = d) ∨ (z = 0 ∧ v.2.2 = 0)) :
    total h1 f R z φ t v r1 = total h2 f R z φ t v r2 := by
  have t1 := (C06_total (f := f) (R := R) (z := z) (φ := φ) (t := t) (v := v) P hP (.mul k (.add a b)) q.wf ⟨pa, pb⟩ e1).2.1
  have t2 := (C06_total (f := f) (R := R) (z := z) (φ := φ) (t := t) (v := v) P hP (.add (.mul k a) (.mul k b)) q.wf ⟨pa, pb⟩ e2).2.1
  rw [t1, t2]
  simp only [PotExpr.denote]
  ring

/-- Non-vacuity: tripling the sum of two Plummer spheres. -/
example (m : Nat) : ∃ (h h' : Heap) (r : Ref), Reachable m h ∧ Compose.mul 2 2 (some 3) h = (.ok r, h') ∧
    call h' .val 1 1 none 0 none 2 r = (call h .val 1 1 none 0 none 2 2).map (3 * ·) := by
  obtain ⟨c, hc, k⟩ := Compose.plummerPair m
  obtain ⟨r, h', e⟩ := C07_combination_succeeds (n := 0) k (a := 2) (c := c) rfl (by
    rw [hc]
    intro s hs o p ho hp
    simp only [List.mem_singleton] at hs
    subst hs
    simp only [List.getElem?_cons_zero, List.getElem?_cons_succ, Option.some.injEq] at ho hp
    subst ho hp
    exact ⟨fun q => (nomatch q), fun q => (nomatch q)⟩) 3
  exact ⟨_, h', r, k, e, (C07_mul k e).1 _ _ _ _ _ _ 0⟩

end Verif

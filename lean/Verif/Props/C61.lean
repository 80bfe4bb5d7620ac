import Verif.Props.C09

set_option autoImplicit false

/-! # C61: items and slices of a combination -/

noncomputable section
namespace Verif
open Compose

/-- Python's meaning of item `k` of a sequence of length `len`: position `p`, counted from the end for
negative `k`. -/
def ItemPos (len : Nat) (k : Int) (p : Nat) : Prop := p < len ∧ ((p : Int) = k ∨ (p : Int) = len + k)

theorem Compose.pyIndex_some {len p : Nat} {k : Int} : pyIndex len k = some p ↔ ItemPos len k p := by
  unfold pyIndex ItemPos
  split
  · split
    · constructor
      · intro h; injection h with h; omega
      · intro h; congr 1; omega
    · constructor
      · intro h; cases h
      · intro h; omega
  · split
    · constructor
      · intro h; injection h with h; omega
      · intro h; congr 1; omega
    · constructor
      · intro h; cases h
      · intro h; omega

theorem Compose.pyIndex_none {len : Nat} {k : Int} : pyIndex len k = none ↔ (k < -len ∨ (len : Int) ≤ k) := by
  unfold pyIndex
  split
  · split <;> simp <;> omega
  · split <;> simp <;> omega

/-- `c[k]` is the member at position `k` (from the end for negative `k`), it is not copied, and nothing is
changed; outside `-len ≤ k < len` it is an `IndexError`. -/
theorem C61_get {n : Nat} {h : Heap} {a : Ref} {c : Comp} (ha : h[a]? = some (.comp c)) (k : Int) :
    (∀ p, ItemPos c.members.length k p → ∃ r, c.members[p]? = some r ∧ getItem n a (.int k) h = (.ok r, h)) ∧
    (k < -c.members.length ∨ (c.members.length : Int) ≤ k → getItem n a (.int k) h = (.error .indexError, h)) := by
  constructor
  · intro p hp
    have e := Compose.pyIndex_some.2 hp
    refine ⟨c.members[p]'hp.1, List.getElem?_eq_getElem hp.1, ?_⟩
    simp only [getItem, ha, e, List.getElem?_eq_getElem hp.1]
  · intro hk
    have e := Compose.pyIndex_none.2 hk
    simp only [getItem, ha, e]

/-- `c[i:j]` of a combination whose members agree on the units is a new combination of the same dimension
whose members are those at the positions `i ≤ p < j`, in order; the combination and its members are
unchanged. -/
theorem C61_slice {m n : Nat} {h : Heap} (q : Reachable m h) {a : Ref} {c : Comp} (ha : h[a]? = some (.comp c))
    (i j : Nat)
    (hu : ∀ s ∈ c.members, ∀ s' ∈ c.members, ∀ l l', IsLeaf h s l → IsLeaf h s' l' → compatible l.units l'.units) :
    ∃ d : Comp, getItem (n + 1) a (.slice i j) h = (.ok h.length, h ++ [.comp d]) ∧ d.dim = c.dim ∧
      d.members.length = min j c.members.length - i ∧ ∀ p < d.members.length, d.members[p]? = c.members[i + p]? := by
  have ok := q.wf.comp a c ha
  have sub : ∀ s ∈ (c.members.take j).drop i, s ∈ c.members := fun s hs =>
    List.mem_of_mem_take (List.mem_of_mem_drop hs)
  obtain ⟨d, e, hm, hd, -⟩ := mkComp_total q.wf (n := n) (dim := c.dim) (rs := (c.members.take j).drop i) ok.dims
    (fun r hr => by
      obtain ⟨l, hl, hl'⟩ := ok.flat r (sub r hr)
      exact ⟨l, hl, hl'⟩)
    (by
      cases hr : (c.members.take j).drop i with
      | nil => trivial
      | cons r rs =>
        intro s hs o p ho hp
        have m1 := sub r (by rw [hr]; simp)
        have m2 := sub s (by rw [hr]; simp [hs])
        obtain ⟨l1, k1, -⟩ := ok.flat r m1
        obtain ⟨l2, k2, -⟩ := ok.flat s m2
        unfold IsLeaf at k1 k2
        rw [ho] at k1; rw [hp] at k2
        injection k1 with k1; injection k2 with k2
        subst k1 k2
        exact hu r m1 s m2 l1 l2 ho hp)
  refine ⟨d, ?_, hd, ?_, ?_⟩
  · simp only [getItem, ha]
    exact e
  · rw [hm, List.length_drop, List.length_take]
  · intro p hp
    rw [hm, List.length_drop, List.length_take] at hp
    rw [hm, List.getElem?_drop, List.getElem?_take_of_lt (by omega)]

/-- `c[k] = pot` for a 2D or 3D combination, an index in range and a single object of the same dimension
(with units compatible with those of the first member unless `k = 0`) succeeds: afterwards the
combination has `pot` at that position, every other position is unchanged, and no other object is changed. -/
theorem C61_set {m n : Nat} {h : Heap} (q : Reachable m h) {a r : Ref} {c : Comp} {l : Leaf}
    (ha : h[a]? = some (.comp c)) (hc : c.dim ≠ 1) (hr : IsLeaf h r l) (hd : l.dim = c.dim) {k : Int} {p : Nat}
    (hp : ItemPos c.members.length k p)
    (hu : k ≠ 0 → ∀ s, c.members.head? = some s → ∀ l', IsLeaf h s l' → compatible l'.units l.units) :
    ∃ d : Comp, setItem (n + 1) a (.int k) (.ref r) h = (.ok (), h.set a (.comp d)) ∧
      d.members.length = c.members.length ∧ d.members[p]? = some r ∧
      (∀ p', p' ≠ p → d.members[p']? = c.members[p']?) ∧ d.dim = c.dim ∧ d.units = c.units := by
  have e := Compose.pyIndex_some.2 hp
  have hr' : h[r]? = some (.leaf l) := hr
  have ok := q.wf.comp a c ha
  set c' : Comp := { c with members := c.members.set p r } with hc'
  have mem : ∀ s ∈ c'.members, ∃ l, IsLeaf (h.set a (.comp c')) s l ∧ l.dim = c'.dim ∧ l.nonAxi.isSome := by
    intro s hs
    have : ∃ l, IsLeaf h s l ∧ l.dim = c.dim := by
      rcases List.mem_or_eq_of_mem_set hs with hs | hs
      · obtain ⟨l, hl, hl'⟩ := ok.flat s hs; exact ⟨l, hl, hl'⟩
      · exact ⟨l, by rw [hs]; exact hr, hd⟩
    obtain ⟨l2, k1, k2⟩ := this
    refine ⟨l2, (isLeaf_set ha s l2).2 k1, k2, ?_⟩
    rcases q.wf.leaf s l2 k1 with ⟨x, -⟩ | ⟨-, x⟩
    · exact absurd (k2.symm.trans x) hc
    · exact x
  have hd' : c'.dim = 2 ∨ c'.dim = 3 := by
    rcases ok.dims with x | x
    · exact absurd x hc
    · exact x
  obtain ⟨r1, -, r2, r3, r4⟩ := recompute_ok (h := h.set a (.comp c')) (n := n) (c := c') hd' mem
  refine ⟨(recompute (h.set a (.comp c')) (n + 1) c').2, ?_, ?_, ?_, ?_, r4, r3⟩
  · unfold setItem
    simp only [ha, hr']
    have hd0 : (Obj.leaf l).dim = c.dim := hd
    rw [if_neg (not_not.2 hd0), if_neg]
    · simp only [assign, e, Option.map_some]
      show (_, _) = (_, _)
      rw [List.set_set]
      exact Prod.ext r1 rfl
    · rintro ⟨⟨i, h1, h2⟩, h3⟩
      injection h1 with h1
      subst h1
      refine h3 fun s u hs hsu => ?_
      have ms : s ∈ c.members := List.mem_of_head? hs
      obtain ⟨l2, k2, -⟩ := ok.flat s ms
      have k2' : h[s]? = some (.leaf l2) := k2
      rw [k2'] at hsu
      injection hsu with hsu
      subst hsu
      exact hu h2 s hs l2 k2
  · rw [r2]; exact List.length_set
  · rw [r2]; exact List.getElem?_set_self hp.1
  · intro p' hne
    rw [r2]; exact List.getElem?_set_ne (Ne.symm hne)

/-- A two-member combination: item `-1` is the last member, slices work and item 1 can be replaced. -/
example (m n : Nat) : ∃ (h : Heap) (a : Ref) (c : Comp), Reachable m h ∧ h[a]? = some (.comp c) ∧ c.members = [0, 1] ∧
    getItem n a (.int (-1)) h = (.ok 1, h) ∧ getItem n a (.int 2) h = (.error .indexError, h) ∧
    (∃ d : Comp, getItem (n + 1) a (.slice 1 5) h = (.ok h.length, h ++ [.comp d]) ∧ d.members.length = 1) ∧
    ∃ d : Comp, setItem (n + 1) a (.int (-1)) (.ref 0) h = (.ok (), h.set a (.comp d)) ∧ d.members[1]? = some 0 := by
  let x := plain 3 (some false) true defaultUnits
  have r1 : Reachable m [.leaf x, .leaf x] :=
    .step (.new x) (.step (.new x) .start (plain_valid3 _ _ _)) (plain_valid3 _ _ _)
  have cx : compatible x.units x.units := ⟨nofun, nofun⟩
  obtain ⟨c, e, hm, hd, -⟩ := add_total r1.wf (n := m) (a := 0) (b := 1) (l := x) (l' := x) rfl rfl rfl cx
  have r2 : Reachable m [.leaf x, .leaf x, .comp c] := by
    have := Reachable.step (.add 0 (.ref 1)) r1 trivial
    rw [exec, e] at this
    exact this
  have all : ∀ s ∈ c.members, ∀ l, IsLeaf [.leaf x, .leaf x, .comp c] s l → l = x := by
    intro s hs l hl
    rw [hm] at hs
    rcases List.mem_cons.1 hs with rfl | hs
    · injection hl with hl; injection hl with hl; exact hl.symm
    · rw [List.mem_singleton] at hs
      subst hs
      injection hl with hl; injection hl with hl; exact hl.symm
  refine ⟨_, 2, c, r2, rfl, hm, ?_, ?_, ?_, ?_⟩
  · obtain ⟨r, q1, q2⟩ := (C61_get (n := n) (h := [.leaf x, .leaf x, .comp c]) (a := 2) (c := c) rfl (-1)).1 1
      (by rw [hm]; exact ⟨by decide, .inr rfl⟩)
    rw [hm] at q1
    injection q1 with q1
    rw [q1]; exact q2
  · exact (C61_get (n := n) (h := [.leaf x, .leaf x, .comp c]) (a := 2) (c := c) rfl 2).2 (by rw [hm]; exact .inr (by decide))
  · obtain ⟨d, q1, -, q2, -⟩ := C61_slice (n := n) r2 (a := 2) (c := c) rfl 1 5 fun s hs s' hs' l l' k k' => by
      rw [all s hs l k, all s' hs' l' k']; exact cx
    exact ⟨d, q1, by rw [q2, hm]; rfl⟩
  · obtain ⟨d, q1, -, q2, -⟩ := C61_set (n := n) r2 (a := 2) (r := 0) (c := c) (l := x) (k := -1) (p := 1) rfl
      (by rw [hd]; show 3 ≠ 1; decide) rfl hd.symm (by rw [hm]; exact ⟨by decide, .inr rfl⟩)
      (fun _ s hs l' hl' => by
        rw [all s (List.mem_of_head? hs) l' hl']; exact cx)
    exact ⟨d, q1, q2⟩

end Verif

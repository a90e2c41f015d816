import Mathlib.Tactic.Ring
import Mathlib.Tactic.FieldSimp
import Mathlib.Tactic.Linarith
import Mathlib.Algebra.Order.Field.Basic
import Mathlib.Algebra.BigOperators.Group.Finset.Basic
import Mathlib.Data.List.Perm.Subperm
import Mathlib.Data.List.Range
import Mathlib.Analysis.SpecialFunctions.Sqrt
import Mathlib.Tactic.Tauto
import Verif.Random.BridgeModel

/-! # C41: the Brownian bridge -/

namespace Dal

open Dal.Bridge

/-! ### The order of construction -/

/-- What a sequence of steps has to satisfy when the points `built` are there already: each step puts a new point `l` strictly
between two built points `j - 1` (or the start, if `j` is 0) and `k` with nothing built between them. -/
def Orderly (n : Nat) : List Nat → List Step → Prop
  | _, [] => True
  | built, s :: r =>
    s.k ∈ built ∧ (s.j = 0 ∨ s.j - 1 ∈ built) ∧ s.j ≤ s.l ∧ s.l < s.k ∧ s.k < n ∧ (∀ x, s.j ≤ x → x < s.k → x ∉ built) ∧
      Orderly n (s.l :: built) r

private theorem scan_spec (zero : Bool) (map : List Nat) : ∀ (fuel j : Nat), map.length < fuel + j →
    (∃ q, j ≤ q ∧ ∃ v, map[q]? = some v ∧ ¬ ((v == 0) = zero)) →
    ∃ p, scan zero map fuel j = some p ∧ j ≤ p ∧ (∃ v, map[p]? = some v ∧ ¬ ((v == 0) = zero)) ∧
      ∀ x, j ≤ x → x < p → ∃ v, map[x]? = some v ∧ (v == 0) = zero := by
  intro fuel
  induction fuel with
  | zero =>
    rintro j hj ⟨q, hq, v, hv, _⟩
    have := (List.getElem?_eq_some_iff.1 hv).1
    omega
  | succ fuel ih =>
    rintro j hj ⟨q, hq, v, hv, hz⟩
    have hq' := (List.getElem?_eq_some_iff.1 hv).1
    rw [scan]
    have hjl : j < map.length := by omega
    rw [List.getElem?_eq_getElem hjl]
    dsimp only
    by_cases h : (map[j] == 0) = zero
    · rw [if_pos h]
      have hne : j ≠ q := by
        rintro rfl
        rw [List.getElem?_eq_getElem hjl] at hv
        exact hz (by rw [← Option.some.inj hv]; exact h)
      obtain ⟨p, h1, h2, h3, h4⟩ := ih (j + 1) (by omega) ⟨q, by omega, v, hv, hz⟩
      refine ⟨p, h1, by omega, h3, ?_⟩
      intro x hx hxp
      by_cases hxj : x = j
      · subst hxj
        exact ⟨_, List.getElem?_eq_getElem hjl, h⟩
      · exact h4 x (by omega) hxp
    · rw [if_neg h]
      exact ⟨j, rfl, Nat.le_refl _, ⟨_, List.getElem?_eq_getElem hjl, h⟩, fun x h1 h2 => by omega⟩

/-- `x` is not built. -/
private def Z (map : List Nat) (x : Nat) : Prop := map[x]? = some 0

private structure Inv (n : Nat) (map : List Nat) (j R : Nat) : Prop where
  len : map.length = n
  pos : 0 < n
  last : ¬ Z map (n - 1)
  rle : R ≤ n - 1
  gap : ∀ x, n - 1 - R ≤ x → x < n - 1 → Z map x
  jle : j ≤ n - 1 - R
  edge : j = 0 ∨ ¬ Z map (j - 1)
  right : ∀ a b, j ≤ a → a ≤ b → (∀ x, a ≤ x → x < b → Z map x) → b - a ≤ R
  left : ∀ a b, a ≤ b → b ≤ j → (∀ x, a ≤ x → x < b → Z map x) → b - a ≤ R / 2

private theorem Inv.full {n : Nat} {map : List Nat} {j : Nat} (h : Inv n map j 0) (x : Nat) : ¬ Z map x := by
  intro hz
  by_cases hx : j ≤ x
  · have := h.right x (x + 1) hx (by omega) (fun y h1 h2 => by rwa [show y = x by omega])
    omega
  · have := h.left x (x + 1) (by omega) (by omega) (fun y h1 h2 => by rwa [show y = x by omega])
    omega

private theorem Z_lt {map : List Nat} {x : Nat} (h : Z map x) : x < map.length := (List.getElem?_eq_some_iff.1 h).1

private theorem Z_set {map : List Nat} {l i : Nat} (hl : l < map.length) (hi : 0 < i) (x : Nat) :
    Z (map.set l i) x ↔ x ≠ l ∧ Z map x := by
  unfold Z
  by_cases h : x = l
  · subst h
    rw [List.getElem?_set_self hl]
    constructor
    · intro h; have := Option.some.inj h; omega
    · rintro ⟨h, _⟩; exact absurd rfl h
  · rw [List.getElem?_set_ne (by omega)]
    exact ⟨fun h' => ⟨h, h'⟩, fun h' => h'.2⟩

/-- One round, with all its consequences. -/
private theorem Inv.round {n : Nat} {map : List Nat} {j R : Nat} (h : Inv n map j R) (hR : 0 < R) :
    ∃ j' k, scan false map (map.length + 1) j = some j' ∧ scan true map (map.length + 1) j' = some k ∧ j' < k ∧ k < n ∧
      ¬ Z map k ∧ (j' = 0 ∨ ¬ Z map (j' - 1)) ∧ (∀ x, j' ≤ x → x < k → Z map x) ∧
      ∀ i, 0 < i → ∃ R', Inv n (map.set (j' + (k - 1 - j') / 2) i) (if k + 1 ≥ map.length then 0 else k + 1) R' := by
  have hpos := h.pos
  have hrle := h.rle
  have hjle := h.jle
  have hlen := h.len
  have hz0 : Z map (n - 1 - R) := h.gap _ (by omega) (by omega)
  have hlast : ∃ v, map[n - 1]? = some v ∧ ¬ ((v == 0) = true) := by
    have : n - 1 < map.length := by omega
    refine ⟨_, List.getElem?_eq_getElem this, ?_⟩
    intro h'
    apply h.last
    unfold Z
    rw [List.getElem?_eq_getElem this]
    exact congrArg some (by simpa using h')
  obtain ⟨j', e1, a1, ⟨v1, v1', v1z⟩, c1⟩ := scan_spec false map (map.length + 1) j (by omega) ⟨_, hjle, 0, hz0, by decide⟩
  have zj : Z map j' := by
    unfold Z
    rw [v1']
    exact congrArg some (by simpa using v1z)
  have hj'n : j' < n - 1 := by
    have := Z_lt zj
    rcases Nat.lt_or_ge j' (n - 1) with h' | h'
    · exact h'
    · exact absurd (show Z map (n - 1) by rwa [show n - 1 = j' by omega]) h.last
  obtain ⟨k, e2, a2, ⟨v2, v2', v2z⟩, c2⟩ := scan_spec true map (map.length + 1) j' (by omega) ⟨n - 1, by omega, hlast⟩
  have zk : ¬ Z map k := by
    unfold Z
    rw [v2']
    intro h'
    exact v2z (by simpa using h')
  have hj'k : j' < k := by
    rcases Nat.lt_or_ge j' k with h' | h'
    · exact h'
    · exact absurd (show Z map k by rwa [show k = j' by omega]) zk
  have hkn : k < n := by
    have := (List.getElem?_eq_some_iff.1 v2').1
    omega
  have nz : ∀ x, j ≤ x → x < j' → ¬ Z map x := by
    intro x h1 h2 h3
    obtain ⟨v, hv, hv0⟩ := c1 x h1 h2
    rw [Z, hv] at h3
    have := Option.some.inj h3
    simp [this] at hv0
  have zz : ∀ x, j' ≤ x → x < k → Z map x := by
    intro x h1 h2
    obtain ⟨v, hv, hv0⟩ := c2 x h1 h2
    rw [Z, hv]
    exact congrArg some (by simpa using hv0)
  have hsize : k - j' ≤ R := h.right j' k a1 (by omega) zz
  have hedge : j' = 0 ∨ ¬ Z map (j' - 1) := by
    by_cases hjj : j' = j
    · rw [hjj]; exact h.edge
    · exact Or.inr (nz _ (by omega) (by omega))
  refine ⟨j', k, e1, e2, hj'k, hkn, zk, hedge, zz, ?_⟩
  intro i hi
  generalize hl : j' + (k - 1 - j') / 2 = l
  have hl1 : j' ≤ l := by omega
  have hl2 : l < k := by omega
  have zset := fun x => Z_set (map := map) (l := l) (i := i) (by omega) hi x
  -- runs to the left of `k + 1` are short
  have short : ∀ a b, a ≤ b → b ≤ k + 1 → (∀ x, a ≤ x → x < b → Z (map.set l i) x) → b - a ≤ R / 2 := by
    intro a b hab hb hr
    by_cases hemp : a = b
    · omega
    have hb' : b ≤ k := by
      rcases Nat.lt_or_ge k b with h' | h'
      · exact absurd ((zset k).1 (hr k (by omega) h')).2 zk
      · exact h'
    by_cases hbj : b ≤ j
    · exact h.left a b hab hbj (fun x h1 h2 => ((zset x).1 (hr x h1 h2)).2)
    have haj : j ≤ a := by
      rcases Nat.lt_or_ge a j with h' | h'
      · rcases h.edge with h0 | h0
        · omega
        · exact absurd ((zset (j - 1)).1 (hr (j - 1) (by omega) (by omega))).2 h0
      · exact h'
    have haj' : j' ≤ a := by
      rcases Nat.lt_or_ge a j' with h' | h'
      · exact absurd ((zset a).1 (hr a (Nat.le_refl _) (by omega))).2 (nz a haj h')
      · exact h'
    have hnl : b ≤ l ∨ l < a := by
      by_cases h1 : b ≤ l
      · exact Or.inl h1
      · by_cases h2 : l < a
        · exact Or.inr h2
        · exact absurd rfl ((zset l).1 (hr l (by omega) (by omega))).1
    omega
  by_cases hkl : k + 1 ≥ map.length
  · rw [if_pos hkl]
    have hk : k = n - 1 := by omega
    have hj'R : j' = n - 1 - R := by
      have h1 : j' ≤ n - 1 - R := by
        rcases Nat.lt_or_ge (n - 1 - R) j' with h' | h'
        · exact absurd hz0 (nz _ hjle h')
        · exact h'
      omega
    have hl3 : n - 1 - R / 2 = l + 1 := by omega
    refine ⟨R / 2, by simp [hlen], hpos, ?_, by omega, ?_, by omega, Or.inl rfl, ?_, ?_⟩
    · rw [zset]; exact fun h' => h.last h'.2
    · intro x h1 h2
      rw [zset]
      exact ⟨by omega, h.gap x (by omega) h2⟩
    · intro a b _ hab hr
      by_cases hemp : a = b
      · omega
      have hbn : b ≤ k + 1 := by
        have := Z_lt (hr (b - 1) (by omega) (by omega))
        rw [List.length_set] at this
        omega
      exact short a b hab hbn hr
    · intro a b hab hb hr
      omega
  · rw [if_neg hkl]
    have hkR : k < n - 1 - R := by
      rcases Nat.lt_or_ge k (n - 1 - R) with h' | h'
      · exact h'
      · exact absurd (h.gap k h' (by omega)) zk
    refine ⟨R, by simp [hlen], hpos, ?_, hrle, ?_, by omega, Or.inr ?_, ?_, ?_⟩
    · rw [zset]; exact fun h' => h.last h'.2
    · intro x h1 h2
      rw [zset]
      exact ⟨by omega, h.gap x h1 h2⟩
    · rw [Nat.add_sub_cancel, zset]; exact fun h' => zk h'.2
    · intro a b ha hab hr
      exact h.right a b (by omega) hab (fun x h1 h2 => ((zset x).1 (hr x h1 h2)).2)
    · exact short

private theorem loop_ok {n : Nat} : ∀ (count i j R : Nat) (map : List Nat) (built : List Nat), Inv n map j R → 0 < i →
    map.count 0 = count → (∀ x, x < n → (x ∈ built ↔ ¬ Z map x)) →
    ∃ steps, loop count i j map = some steps ∧ steps.length = count ∧ Orderly n built steps := by
  intro count
  induction count with
  | zero => intro i j R map built _ _ _ _; exact ⟨[], rfl, rfl, trivial⟩
  | succ count ih =>
    intro i j R map built h hi hc hb
    have hR : 0 < R := by
      rcases Nat.eq_zero_or_pos R with rfl | h'
      · exfalso
        have h0 : 0 ∈ map := List.count_pos_iff.1 (by omega)
        obtain ⟨x, hx, hx'⟩ := List.mem_iff_getElem.1 h0
        exact h.full x (by rw [Z, List.getElem?_eq_getElem hx, hx'])
      · exact h'
    obtain ⟨j', k, e1, e2, hj'k, hkn, zk, hedge, zz, hnext⟩ := h.round hR
    obtain ⟨R', h'⟩ := hnext i hi
    have hlen := h.len
    generalize hl : j' + (k - 1 - j') / 2 = l at h'
    have hlk : l < k := by omega
    have hjl : j' ≤ l := by omega
    have zl : Z map l := zz l hjl hlk
    have hll : l < map.length := by omega
    obtain ⟨steps, h1, h2, h3⟩ := ih (i + 1) _ R' (map.set l i) (l :: built) h' (by omega) (by
      have hl0 : map[l] = 0 := by
        rw [Z, List.getElem?_eq_getElem hll] at zl
        exact Option.some.inj zl
      rw [List.count_set hll, hl0]
      have : (i == 0) = false := by simp; omega
      simp [this, hc]) (by
      intro x hx
      rw [List.mem_cons, hb x hx, Z_set hll hi]
      constructor
      · rintro (rfl | h4)
        · exact fun h5 => h5.1 rfl
        · exact fun h5 => h4 h5.2
      · intro h4
        by_cases hxl : x = l
        · exact Or.inl hxl
        · exact Or.inr (fun h5 => h4 ⟨hxl, h5⟩))
    refine ⟨⟨l, j', k⟩ :: steps, ?_, by simp [h2], ?_⟩
    · rw [loop, e1]
      dsimp only
      rw [e2]
      dsimp only
      rw [hl, h1]
      rfl
    · refine ⟨(hb k hkn).2 zk, ?_, hjl, hlk, hkn, ?_, h3⟩
      · rcases hedge with h4 | h4
        · exact Or.inl h4
        · exact Or.inr ((hb _ (show j' - 1 < n by omega)).2 h4)
      · intro x hx1 hx2 hx3
        exact (hb x (show x < n by dsimp only at hx2; omega)).1 hx3 (zz x hx1 hx2)

private theorem Z_start {n : Nat} (hn : 0 < n) (x : Nat) : Z ((List.replicate n 0).set (n - 1) 1) x ↔ x < n - 1 := by
  rw [Z_set (by simp; omega) (by omega)]
  unfold Z
  rw [List.getElem?_replicate]
  constructor
  · rintro ⟨h1, h2⟩
    split at h2
    · omega
    · exact absurd h2 (by simp)
  · intro h
    exact ⟨by omega, by rw [if_pos (by omega)]⟩

/-- C41: for every number of steps, the construction of the bridge stays within its arrays, takes one round per remaining point, and
each round puts a point that was not there between two neighbouring points that were. -/
theorem C41_construction (n : Nat) (hn : 0 < n) :
    ∃ steps, init n = some steps ∧ steps.length = n - 1 ∧ Orderly n [n - 1] steps := by
  unfold init
  rw [if_neg (by omega)]
  apply loop_ok (n - 1) 1 0 (n - 1)
  · refine ⟨by simp, hn, ?_, Nat.le_refl _, ?_, by omega, Or.inl rfl, ?_, ?_⟩
    · rw [Z_start hn]; omega
    · intro x _ h; rwa [Z_start hn]
    · intro a b _ hab hr
      by_cases hemp : a = b
      · omega
      · have := (Z_start hn _).1 (hr (b - 1) (by omega) (by omega))
        omega
    · intro a b _ _ _; omega
  · omega
  · rw [List.count_set (by simp; omega)]
    simp
  · intro x hx
    rw [Z_start hn, List.mem_singleton]
    omega

private theorem Orderly.perm {n : Nat} : ∀ (steps : List Step) (built : List Nat), Orderly n built steps → built.Nodup →
    (∀ x ∈ built, x < n) → (steps.map (·.l) ++ built).Nodup ∧ ∀ x ∈ steps.map (·.l) ++ built, x < n := by
  intro steps
  induction steps with
  | nil => intro built _ h1 h2; exact ⟨by simpa using h1, by simpa using h2⟩
  | cons s r ih =>
    rintro built ⟨_, _, h3, h4, h5, h6, h7⟩ h1 h2
    obtain ⟨h8, h9⟩ := ih (s.l :: built) h7 (List.nodup_cons.2 ⟨h6 s.l h3 h4, h1⟩) (by
      intro x hx
      rcases List.mem_cons.1 hx with rfl | hx
      · omega
      · exact h2 x hx)
    have hp : (r.map (·.l) ++ s.l :: built).Perm ((s :: r).map (·.l) ++ built) := by
      rw [List.map_cons, List.cons_append]
      exact List.perm_middle
    exact ⟨hp.nodup_iff.1 h8, fun x hx => h9 x (hp.mem_iff.2 hx)⟩

/-- C41: every time step is visited exactly once. -/
theorem C41_each_once (n : Nat) (hn : 0 < n) : ∃ steps, init n = some steps ∧ ((n - 1) :: steps.map (·.l)).Perm (List.range n) := by
  obtain ⟨steps, h1, h2, h3⟩ := C41_construction n hn
  obtain ⟨h4, h5⟩ := Orderly.perm steps [n - 1] h3 (by simp) (by simp; omega)
  refine ⟨steps, h1, ?_⟩
  have hp : (steps.map (·.l) ++ [n - 1]).Perm ((n - 1) :: steps.map (·.l)) := List.perm_append_comm
  refine hp.symm.trans ?_
  have hsub : (steps.map (·.l) ++ [n - 1]).Subperm (List.range n) :=
    List.subperm_of_subset h4 (fun x hx => List.mem_range.2 (h5 x hx))
  exact hsub.perm_of_length_le (by simp [h2]; omega)

/-- C41, not so: with no dimension at all the construction writes outside of its arrays. -/
theorem C41_no_dimension_violated : init 0 = none := rfl

/-! ### The transform -/

variable {K : Type} [Field K] [LinearOrder K] [IsStrictOrderedRing K]

/-- The sum of the squared increments between neighbouring built points, each over its duration, from the points below `x`; with the
last built point's time and value. -/
private def walk (t w : Nat → K) (b : Nat → Prop) [DecidablePred b] : Nat → K × K × K
  | 0 => (0, 0, 0)
  | x + 1 =>
    let s := walk t w b x
    if b x then (s.1 + (w x - s.2.2) ^ 2 / (t x - s.2.1), t x, w x) else s

private theorem walk_congr {t w w' : Nat → K} {b b' : Nat → Prop} [DecidablePred b] [DecidablePred b'] : ∀ (x : Nat),
    (∀ y, y < x → (b y ↔ b' y) ∧ (b y → w y = w' y)) → walk t w b x = walk t w' b' x := by
  intro x
  induction x with
  | zero => intro _; rfl
  | succ x ih =>
    intro h
    obtain ⟨h1, h2⟩ := h x (by omega)
    rw [walk, walk, ih (fun y hy => h y (by omega))]
    by_cases hb : b x
    · rw [if_pos hb, if_pos (h1.1 hb), h2 hb]
    · rw [if_neg hb, if_neg (fun h' => hb (h1.2 h'))]

private theorem walk_gap {t w : Nat → K} {b : Nat → Prop} [DecidablePred b] {x : Nat} : ∀ (d : Nat),
    (∀ y, x ≤ y → y < x + d → ¬ b y) → walk t w b (x + d) = walk t w b x := by
  intro d
  induction d with
  | zero => intro _; rfl
  | succ d ih =>
    intro h
    rw [← Nat.add_assoc, walk]
    rw [if_neg (h (x + d) (by omega) (by omega)), ih (fun y h1 h2 => h y h1 (by omega))]

private theorem walk_shift {t w w' : Nat → K} {b b' : Nat → Prop} [DecidablePred b] [DecidablePred b'] {x : Nat} {e : K}
    (h0 : walk t w' b' x = ((walk t w b x).1 + e, (walk t w b x).2)) : ∀ (d : Nat),
    (∀ y, x ≤ y → (b y ↔ b' y) ∧ w y = w' y) → walk t w' b' (x + d) = ((walk t w b (x + d)).1 + e, (walk t w b (x + d)).2) := by
  intro d
  induction d with
  | zero => intro _; exact h0
  | succ d ih =>
    intro h
    obtain ⟨h1, h2⟩ := h (x + d) (by omega)
    rw [← Nat.add_assoc, walk, walk, ih h]
    dsimp only
    by_cases hb : b (x + d)
    · rw [if_pos hb, if_pos (h1.1 hb), h2]
      dsimp only
      congr 1
      ring
    · rw [if_neg hb, if_neg (fun h' => hb (h1.2 h'))]

/-- The identity behind the bridge. -/
private theorem bridge_identity {ta tl tk a k z s : K} (h1 : ta < tl) (h2 : tl < tk) (hs : s * s = (tl - ta) * (tk - tl) / (tk - ta)) :
    (((tk - tl) / (tk - ta) * a + (tl - ta) / (tk - ta) * k + s * z) - a) ^ 2 / (tl - ta) +
      (k - ((tk - tl) / (tk - ta) * a + (tl - ta) / (tk - ta) * k + s * z)) ^ 2 / (tk - tl) = (k - a) ^ 2 / (tk - ta) + z ^ 2 := by
  have e1 : tl - ta ≠ 0 := (sub_pos.2 h1).ne'
  have e2 : tk - tl ≠ 0 := (sub_pos.2 h2).ne'
  have e3 : tk - ta ≠ 0 := (sub_pos.2 (h1.trans h2)).ne'
  have hl : ((tk - tl) / (tk - ta) * a + (tl - ta) / (tk - ta) * k + s * z) - a = (tl - ta) / (tk - ta) * (k - a) + s * z := by
    field_simp
    ring
  have hr : k - ((tk - tl) / (tk - ta) * a + (tl - ta) / (tk - ta) * k + s * z) = (tk - tl) / (tk - ta) * (k - a) - s * z := by
    field_simp
    ring
  rw [hl, hr]
  have hs' : s ^ 2 * (tk - ta) = (tl - ta) * (tk - tl) := by
    rw [pow_two, hs]
    field_simp
  obtain ⟨p, hp⟩ : ∃ p, p = tl - ta := ⟨_, rfl⟩
  obtain ⟨q, hq⟩ : ∃ q, q = tk - tl := ⟨_, rfl⟩
  have hpq : tk - ta = p + q := by rw [hp, hq]; ring
  rw [← hp] at e1 hs' ⊢
  rw [← hq] at e2 hs' ⊢
  rw [hpq] at e3 hs' ⊢
  have hz : (s * z) ^ 2 = p * q / (p + q) * z ^ 2 := by
    rw [mul_pow, eq_div_of_mul_eq e3 hs']
  have hA : (p / (p + q) * (k - a) + s * z) ^ 2 / p + (q / (p + q) * (k - a) - s * z) ^ 2 / q
      = (p / (p + q) ^ 2 + q / (p + q) ^ 2) * (k - a) ^ 2 + (s * z) ^ 2 * (1 / p + 1 / q) := by
    field_simp
    ring
  rw [hA, hz]
  field_simp
  ring

private theorem value_identity {sq : K → K} (hsq : ∀ x, 0 ≤ x → sq x * sq x = x) {t : Nat → K} (ht0 : 0 < t 0)
    (ht : ∀ i j, i < j → t i < t j) (s : Step) (z : K) (w : Nat → K) (h1 : s.j ≤ s.l) (h2 : s.l < s.k) :
    let ta := if s.j = 0 then 0 else t (s.j - 1)
    let a := if s.j = 0 then 0 else w (s.j - 1)
    (value sq t s z w - a) ^ 2 / (t s.l - ta) + (w s.k - value sq t s z w) ^ 2 / (t s.k - t s.l)
      = (w s.k - a) ^ 2 / (t s.k - ta) + z ^ 2 := by
  have htl : 0 < t s.l := by
    rcases Nat.eq_zero_or_pos s.l with h | h
    · rw [h]; exact ht0
    · exact ht0.trans (ht _ _ h)
  have hlk := ht _ _ h2
  by_cases hj : s.j = 0
  · simp only [hj, value, if_true, ne_eq, not_true, if_false]
    have hv := bridge_identity (a := 0) (k := w s.k) (z := z) (s := sq (t s.l * (t s.k - t s.l) / t s.k)) htl hlk (by
      rw [hsq _ (div_nonneg (mul_nonneg htl.le (sub_nonneg.2 hlk.le)) (htl.trans hlk).le)]
      simp)
    simpa using hv
  · simp only [hj, value, if_false, ne_eq, not_false_eq_true, if_true]
    have hal : t (s.j - 1) < t s.l := ht _ _ (by omega)
    exact bridge_identity hal hlk (hsq _ (div_nonneg (mul_nonneg (sub_nonneg.2 hal.le) (sub_nonneg.2 hlk.le))
      (sub_nonneg.2 (hal.trans hlk).le)))

private theorem build_walk {sq : K → K} (hsq : ∀ x, 0 ≤ x → sq x * sq x = x) {t : Nat → K} (ht0 : 0 < t 0)
    (ht : ∀ i j, i < j → t i < t j) {n : Nat} (z : Nat → K) : ∀ (steps : List Step) (built : List Nat) (i : Nat) (w : Nat → K),
    Orderly n built steps →
    (walk t (build sq t z steps i w) (· ∈ steps.map (·.l) ++ built) n).1
      = (walk t w (· ∈ built) n).1 + ∑ r ∈ Finset.range steps.length, z (i + r) ^ 2 := by
  intro steps
  induction steps with
  | nil =>
    intro built i w _
    simp only [build, List.length_nil, Finset.range_zero, Finset.sum_empty, add_zero]
    rw [walk_congr (b' := (· ∈ built)) (w' := w) n (fun y _ => ⟨by simp, fun _ => rfl⟩)]
  | cons s r ih =>
    rintro built i w ⟨h1, h2, h3, h4, h5, h6, h7⟩
    have hstep := ih (s.l :: built) (i + 1) (Function.update w s.l (value sq t s (z i) w)) h7
    rw [build, walk_congr (b' := (· ∈ r.map (·.l) ++ s.l :: built)) (w' := build sq t z r (i + 1) (Function.update w s.l (value sq t s (z i) w))) n
      (fun y _ => ⟨by simp only [List.mem_append, List.map_cons, List.mem_cons, List.cons_append]; tauto, fun _ => rfl⟩), hstep,
      List.length_cons, Finset.sum_range_succ']
    have hsum : ∑ q ∈ Finset.range r.length, z (i + 1 + q) ^ 2 = ∑ q ∈ Finset.range r.length, z (i + (q + 1)) ^ 2 :=
      Finset.sum_congr rfl (fun q _ => by rw [show i + 1 + q = i + (q + 1) by omega])
    rw [hsum]
    generalize hv : value sq t s (z i) w = v
    have hid := value_identity hsq ht0 ht s (z i) w h3 h4
    rw [hv] at hid
    dsimp only at hid
    -- up to the left neighbour
    have base : (walk t w (· ∈ built) s.j).2 = (if s.j = 0 then 0 else t (s.j - 1), if s.j = 0 then 0 else w (s.j - 1)) := by
      rcases h2 with h0 | h0
      · rw [h0]; rfl
      · by_cases hj : s.j = 0
        · rw [hj]; rfl
        · obtain ⟨q, hq⟩ := Nat.exists_eq_succ_of_ne_zero hj
          rw [hq] at h0 ⊢
          rw [walk]
          rw [if_pos (by simpa using h0)]
          simp
    have old1 : walk t w (· ∈ built) s.k = walk t w (· ∈ built) s.j := by
      have := walk_gap (t := t) (w := w) (b := (· ∈ built)) (x := s.j) (s.k - s.j) (fun y g1 g2 => h6 y g1 (by omega))
      rwa [show s.j + (s.k - s.j) = s.k by omega] at this
    have new0 : walk t (Function.update w s.l v) (· ∈ s.l :: built) s.j = walk t w (· ∈ built) s.j := by
      apply walk_congr
      intro y hy
      have : y ≠ s.l := by omega
      exact ⟨by simp [this], fun _ => by rw [Function.update_of_ne this]⟩
    have new1 : walk t (Function.update w s.l v) (· ∈ s.l :: built) s.l = walk t w (· ∈ built) s.j := by
      have := walk_gap (t := t) (w := Function.update w s.l v) (b := (· ∈ s.l :: built)) (x := s.j) (s.l - s.j) (fun y g1 g2 => by
        have := h6 y g1 (by omega)
        have : y ≠ s.l := by omega
        simp [*])
      rwa [show s.j + (s.l - s.j) = s.l by omega, new0] at this
    have new2 : walk t (Function.update w s.l v) (· ∈ s.l :: built) (s.l + 1)
        = ((walk t w (· ∈ built) s.j).1 + (v - (walk t w (· ∈ built) s.j).2.2) ^ 2 / (t s.l - (walk t w (· ∈ built) s.j).2.1), t s.l, v) := by
      rw [walk, new1]
      rw [if_pos (by simp), Function.update_self]
    have new3 : walk t (Function.update w s.l v) (· ∈ s.l :: built) s.k = walk t (Function.update w s.l v) (· ∈ s.l :: built) (s.l + 1) := by
      have := walk_gap (t := t) (w := Function.update w s.l v) (b := (· ∈ s.l :: built)) (x := s.l + 1) (s.k - (s.l + 1)) (fun y g1 g2 => by
        have := h6 y (by omega) (by omega)
        have : y ≠ s.l := by omega
        simp [*])
      rwa [show s.l + 1 + (s.k - (s.l + 1)) = s.k by omega] at this
    have hkl : s.k ≠ s.l := by omega
    have top : walk t (Function.update w s.l v) (· ∈ s.l :: built) (s.k + 1)
        = ((walk t w (· ∈ built) (s.k + 1)).1 + z i ^ 2, (walk t w (· ∈ built) (s.k + 1)).2) := by
      conv_lhs => rw [walk]
      rw [show walk t w (· ∈ built) (s.k + 1) = ((walk t w (· ∈ built) s.j).1
        + (w s.k - (walk t w (· ∈ built) s.j).2.2) ^ 2 / (t s.k - (walk t w (· ∈ built) s.j).2.1), t s.k, w s.k) by
          rw [walk, old1]; rw [if_pos h1]]
      rw [new3, new2]
      dsimp only
      rw [if_pos (by simp [h1]), Function.update_of_ne hkl, base]
      dsimp only
      rw [add_assoc, hid, ← add_assoc]
    have hn := walk_shift (b := (· ∈ built)) (b' := (· ∈ s.l :: built)) top (n - (s.k + 1)) (fun y hy => by
      have : y ≠ s.l := by omega
      exact ⟨by simp [this], by rw [Function.update_of_ne this]⟩)
    rw [show s.k + 1 + (n - (s.k + 1)) = n by omega] at hn
    rw [hn]
    dsimp only
    rw [add_zero]
    ring

private theorem vary_eq (d : Nat → K) : ∀ (m : Nat) (w : Nat → K) (i : Nat),
    vary d m w i = if 0 < i ∧ i ≤ m then (w i - w (i - 1)) / d i else w i := by
  intro m
  induction m with
  | zero => intro w i; rw [vary, if_neg (by omega)]
  | succ m ih =>
    intro w i
    rw [vary, ih]
    by_cases h : i = m + 1
    · subst h
      rw [if_neg (by omega), Function.update_self, if_pos (by omega)]
      simp
    · by_cases h' : 0 < i ∧ i ≤ m
      · rw [if_pos h', if_pos (by omega), Function.update_of_ne h, Function.update_of_ne (show i - 1 ≠ m + 1 by omega)]
      · rw [if_neg h', if_neg (by omega), Function.update_of_ne h]

private theorem fillNormal_eq (sq : K → K) (t : Nat → K) (n : Nat) (steps : List Step) (z w0 : Nat → K) (i : Nat) (hi : i < n) :
    fillNormal sq t n steps z w0 i =
      (build sq t z steps 1 (Function.update w0 (n - 1) (sq (t (n - 1)) * z 0)) i
        - if i = 0 then 0 else build sq t z steps 1 (Function.update w0 (n - 1) (sq (t (n - 1)) * z 0)) (i - 1)) / sqrtdt sq t i := by
  unfold fillNormal
  by_cases h : i = 0
  · subst h
    rw [Function.update_self, vary_eq, if_neg (by omega), if_pos rfl, sub_zero]
  · rw [Function.update_of_ne h, vary_eq, if_pos (by omega), if_neg h]

private theorem walk_all (t w : Nat → K) (b : Nat → Prop) [DecidablePred b] : ∀ (n : Nat), (∀ x, x < n → b x) →
    (walk t w b n).1 = ∑ i ∈ Finset.range n, (w i - if i = 0 then 0 else w (i - 1)) ^ 2 / (t i - if i = 0 then 0 else t (i - 1)) ∧
    (walk t w b n).2 = (if n = 0 then 0 else t (n - 1), if n = 0 then 0 else w (n - 1)) := by
  intro n
  induction n with
  | zero => intro _; exact ⟨by simp [walk], by simp [walk]⟩
  | succ n ih =>
    intro h
    obtain ⟨h1, h2⟩ := ih (fun x hx => h x (by omega))
    rw [walk]
    rw [if_pos (h n (by omega)), h1, h2, Finset.sum_range_succ]
    simp

/-- C41: the transform preserves the sum of squares, for every size, all times and all inputs; `sq` is the square root. -/
theorem C41_sum_of_squares (sq : K → K) (hsq : ∀ x, 0 ≤ x → sq x * sq x = x) (t : Nat → K) (ht0 : 0 < t 0)
    (ht : ∀ i j, i < j → t i < t j) (n : Nat) (hn : 0 < n) (steps : List Step) (hs : init n = some steps) (z w0 : Nat → K) :
    ∑ i ∈ Finset.range n, fillNormal sq t n steps z w0 i ^ 2 = ∑ i ∈ Finset.range n, z i ^ 2 := by
  obtain ⟨steps', e1, h2, h3⟩ := C41_construction n hn
  rw [hs] at e1
  obtain rfl := Option.some.inj e1
  obtain ⟨steps', e1, hp⟩ := C41_each_once n hn
  rw [hs] at e1
  obtain rfl := Option.some.inj e1
  set w1 := Function.update w0 (n - 1) (sq (t (n - 1)) * z 0) with hw1
  have hw := build_walk hsq ht0 ht z steps [n - 1] 1 w1 h3
  have hall : ∀ x, x < n → x ∈ steps.map (·.l) ++ [n - 1] := by
    intro x hx
    have := hp.mem_iff.2 (List.mem_range.2 hx)
    simp only [List.mem_cons, List.mem_append, List.mem_singleton] at this ⊢
    tauto
  rw [(walk_all t _ (· ∈ steps.map (·.l) ++ [n - 1]) n hall).1] at hw
  have htp : ∀ i, 0 < t i := by
    intro i
    rcases Nat.eq_zero_or_pos i with rfl | h
    · exact ht0
    · exact ht0.trans (ht _ _ h)
  have hstart : (walk t w1 (· ∈ [n - 1]) n).1 = z 0 ^ 2 := by
    obtain ⟨m, rfl⟩ := Nat.exists_eq_succ_of_ne_zero (show n ≠ 0 by omega)
    have hz : walk t w1 (· ∈ [m + 1 - 1]) m = (0, 0, 0) := by
      have := walk_gap (t := t) (w := w1) (b := (· ∈ [m + 1 - 1])) (x := 0) m (fun y g1 g2 => by simp; omega)
      rwa [Nat.zero_add] at this
    show (walk t w1 (· ∈ [m + 1 - 1]) (m + 1)).1 = _
    rw [walk, hz]
    dsimp only
    rw [if_pos (by simp), hw1]
    simp only [Nat.succ_eq_add_one, Nat.add_sub_cancel, Function.update_self, zero_add, sub_zero]
    rw [mul_pow, pow_two (sq (t m)), hsq _ (htp m).le]
    field_simp [(htp m).ne']
  rw [hstart] at hw
  have hlhs : ∑ i ∈ Finset.range n, fillNormal sq t n steps z w0 i ^ 2
      = ∑ i ∈ Finset.range n, (build sq t z steps 1 w1 i - if i = 0 then 0 else build sq t z steps 1 w1 (i - 1)) ^ 2
          / (t i - if i = 0 then 0 else t (i - 1)) := by
    apply Finset.sum_congr rfl
    intro i hi
    rw [fillNormal_eq sq t n steps z w0 i (Finset.mem_range.1 hi), div_pow]
    congr 1
    cases i with
    | zero =>
      rw [sqrtdt, pow_two, hsq _ ht0.le]
      simp
    | succ i =>
      rw [sqrtdt, pow_two, hsq _ (sub_nonneg.2 (ht _ _ (by omega)).le)]
      simp
  rw [hlhs, hw, h2]
  obtain ⟨m, rfl⟩ := Nat.exists_eq_succ_of_ne_zero (show n ≠ 0 by omega)
  rw [Nat.succ_eq_add_one, Nat.add_sub_cancel, Finset.sum_range_succ', add_comm]
  congr 1
  exact Finset.sum_congr rfl (fun q _ => by rw [Nat.add_comm])

private theorem build_linear {sq : K → K} {t : Nat → K} {n : Nat} (a b : K) (z z' : Nat → K) :
    ∀ (steps : List Step) (built : List Nat) (i : Nat) (w w' u : Nat → K),
    Orderly n built steps → (∀ x ∈ built, u x = a * w x + b * w' x) →
    ∀ x ∈ steps.map (·.l) ++ built, build sq t (fun i => a * z i + b * z' i) steps i u x
      = a * build sq t z steps i w x + b * build sq t z' steps i w' x := by
  intro steps
  induction steps with
  | nil => intro built i w w' u _ h x hx; exact h x (by simpa using hx)
  | cons s r ih =>
    rintro built i w w' u ⟨h1, h2, h3, h4, h5, h6, h7⟩ h x hx
    refine ih (s.l :: built) (i + 1) _ _ _ h7 ?_ x (by
      simp only [List.mem_append, List.map_cons, List.mem_cons, List.cons_append] at hx ⊢; tauto)
    intro y hy
    by_cases hyl : y = s.l
    · subst hyl
      rw [Function.update_self, Function.update_self, Function.update_self]
      unfold value
      by_cases hj : s.j = 0
      · rw [if_neg (by simpa using hj), if_neg (by simpa using hj), if_neg (by simpa using hj), h _ h1]
        ring
      · have hj' : s.j - 1 ∈ built := by
          rcases h2 with h0 | h0
          · exact absurd h0 hj
          · exact h0
        rw [if_pos hj, if_pos hj, if_pos hj, h _ h1, h _ hj']
        ring
    · rw [Function.update_of_ne hyl, Function.update_of_ne hyl, Function.update_of_ne hyl]
      rcases List.mem_cons.1 hy with h' | h'
      · exact absurd h' hyl
      · exact h y h'

/-- C41: the transform is linear in its inputs and does not depend on the old contents of the vector; with the preservation of the
sum of squares it is an orthogonal map. -/
theorem C41_linear (sq : K → K) (t : Nat → K) (n : Nat) (hn : 0 < n) (steps : List Step) (hs : init n = some steps)
    (a b : K) (z z' w w' u : Nat → K) (i : Nat) (hi : i < n) :
    fillNormal sq t n steps (fun i => a * z i + b * z' i) u i
      = a * fillNormal sq t n steps z w i + b * fillNormal sq t n steps z' w' i := by
  obtain ⟨steps', e1, h2, h3⟩ := C41_construction n hn
  rw [hs] at e1
  obtain rfl := Option.some.inj e1
  obtain ⟨steps', e1, hp⟩ := C41_each_once n hn
  rw [hs] at e1
  obtain rfl := Option.some.inj e1
  have hall : ∀ x, x < n → x ∈ steps.map (·.l) ++ [n - 1] := by
    intro x hx
    have := hp.mem_iff.2 (List.mem_range.2 hx)
    simp only [List.mem_cons, List.mem_append, List.mem_singleton] at this ⊢
    tauto
  have hb := build_linear (sq := sq) (t := t) a b z z' steps [n - 1] 1 (Function.update w (n - 1) (sq (t (n - 1)) * z 0))
    (Function.update w' (n - 1) (sq (t (n - 1)) * z' 0)) (Function.update u (n - 1) (sq (t (n - 1)) * (a * z 0 + b * z' 0))) h3 (by
      intro x hx
      rw [List.mem_singleton] at hx
      subst hx
      rw [Function.update_self, Function.update_self, Function.update_self]
      ring)
  rw [fillNormal_eq _ _ _ _ _ _ _ hi, fillNormal_eq _ _ _ _ _ _ _ hi, fillNormal_eq _ _ _ _ _ _ _ hi, hb i (hall i hi)]
  by_cases h0 : i = 0
  · rw [if_pos h0, if_pos h0, if_pos h0]
    ring
  · rw [if_neg h0, if_neg h0, if_neg h0, hb (i - 1) (hall _ (by omega))]
    ring

/-- C41: in particular with the times of the program, which are positive and one apart, so that every increment is divided by one and the last
value of the path is the first deviate scaled by the square root of the dimension. -/
theorem C41_own_times (sq : K → K) (hsq : ∀ x, 0 ≤ x → sq x * sq x = x) (hs1 : sq 1 = 1) (n : Nat) (hn : 0 < n) (steps : List Step)
    (hs : init n = some steps) (z w0 : Nat → K) :
    ∑ i ∈ Finset.range n, fillNormal sq times n steps z w0 i ^ 2 = ∑ i ∈ Finset.range n, z i ^ 2 ∧
    (∀ i, sqrtdt sq (times (K := K)) i = 1) ∧ (n = 1 → fillNormal sq times n steps z w0 0 = z 0) := by
  have hd : ∀ i, sqrtdt sq (times (K := K)) i = 1 := by
    intro i
    unfold sqrtdt times
    by_cases h : i = 0
    · subst h
      simpa using hs1
    · obtain ⟨j, rfl⟩ := Nat.exists_eq_succ_of_ne_zero h
      simp only [Nat.succ_eq_add_one, if_neg h, Nat.add_sub_cancel]
      push_cast
      rw [show ((j : K) + 1 + 1 - (j + 1)) = 1 by ring, hs1]
  refine ⟨C41_sum_of_squares sq hsq times (by simp [times]) (fun i j h => by simpa [times] using h) n hn steps hs z w0, hd, ?_⟩
  rintro rfl
  have : steps = [] := by
    have e : init 1 = some [] := by decide
    rw [e] at hs
    exact (Option.some.inj hs).symm
  subst this
  simp [fillNormal, build, vary, hd, times, hs1]

/-! ### The hypotheses hold -/

example : (∀ x : ℝ, 0 ≤ x → Real.sqrt x * Real.sqrt x = x) ∧ (0 : ℝ) < times 0 ∧ ∀ i j : Nat, i < j → (times i : ℝ) < times j :=
  ⟨fun _ => Real.mul_self_sqrt, by simp [times], fun i j h => by simpa [times] using h⟩

example : init 5 = some [⟨1, 0, 4⟩, ⟨0, 0, 1⟩, ⟨2, 2, 4⟩, ⟨3, 3, 4⟩] := by decide

end Dal

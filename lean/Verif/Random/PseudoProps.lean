import Mathlib.Tactic.Ring
import Mathlib.Tactic.Linarith
import Mathlib.Tactic.FieldSimp
import Mathlib.Data.Rat.Floor
import Mathlib.Data.Nat.Bitwise
import Verif.Random.PseudoModel

/-! # C39: uniform deviates lie strictly inside (0,1) -/

namespace Dal

open Dal.Rng

/-! ### `ShuffledIRN_` -/

private structure Ok (s : Irn) (k : Nat) : Prop where
  len : s.irn.length = M
  sh : s.shuffle.length = k
  lo : 0 ≤ s.irl
  hi : s.irl < M
  small : ∀ x ∈ s.shuffle, x < DENOM

private theorem irnStep_ok {s : Irn} {k : Nat} (h : Ok s k) :
    ∃ r s', s.irnStep = some (r, s') ∧ r < DENOM ∧ Ok s' k ∧ s'.shuffle = s.shuffle ∧
      s'.irl = if s.irl - 1 < 0 then (M : Int) - 1 else s.irl - 1 := by
  unfold Irn.irnStep
  have hi := h.hi
  have hlo := h.lo
  have hM : M = 55 := rfl
  have hL : L = 31 := rfl
  dsimp only
  have hi0 : 0 ≤ (if s.irl - 1 < 0 then (M : Int) - 1 else s.irl - 1) ∧ (if s.irl - 1 < 0 then (M : Int) - 1 else s.irl - 1) < M := by
    split <;> omega
  generalize (if s.irl - 1 < 0 then (M : Int) - 1 else s.irl - 1) = i at hi0
  have hp : 0 ≤ Int.tmod (i + L) M ∧ Int.tmod (i + L) M < M := by
    rw [Int.tmod_eq_emod_of_nonneg (by omega)]
    exact ⟨Int.emod_nonneg _ (by omega), Int.emod_lt_of_pos _ (by omega)⟩
  generalize Int.tmod (i + L) M = p at hp
  rw [if_pos ⟨hi0.1, hp.1⟩]
  have h1 : i.toNat < s.irn.length := by rw [h.len]; omega
  have h2 : p.toNat < s.irn.length := by rw [h.len]; omega
  rw [List.getElem?_eq_getElem h1, List.getElem?_eq_getElem h2]
  refine ⟨_, _, rfl, Nat.mod_lt _ (by decide), ⟨?_, h.sh, hi0.1, hi0.2, h.small⟩, rfl, rfl⟩
  simp [h.len]

private theorem next_ok {s : Irn} (h : Ok s S) : ∃ u s', s.next = some (u, s') ∧ Ok s' S ∧ 0 < u ∧ u < 2 * DENOM ∧
    s'.irl = if s.irl - 1 < 0 then (M : Int) - 1 else s.irl - 1 := by
  obtain ⟨r, s', h1, h2, h3, _, h5⟩ := irnStep_ok h
  unfold Irn.next
  rw [h1]
  dsimp only
  have hs : r % S < s'.shuffle.length := by rw [h3.sh]; exact Nat.mod_lt _ (by decide)
  rw [List.getElem?_eq_getElem hs]
  dsimp only
  have hsm : s'.shuffle[r % S] < DENOM := h3.small _ (List.getElem_mem hs)
  have hD : DENOM = 2 ^ 30 := rfl
  rw [if_pos (by omega)]
  refine ⟨_, _, rfl, ⟨h3.len, ?_, h3.lo, h3.hi, ?_⟩, by omega, by omega, h5⟩
  · simp [h3.sh]
  · intro x hx
    rcases List.mem_or_eq_of_mem_set hx with hx | rfl
    · exact h3.small x hx
    · exact h2

private theorem table_len : ∀ (k p : Nat), (irnTable k p).length = k := by
  intro k
  induction k with
  | zero => intro p; rfl
  | succ k ih => intro p; simp [irnTable, ih]

private theorem fill_ok : ∀ (k : Nat) (s : Irn) (j : Nat), Ok s j → ∃ s', fillShuffle k s = some s' ∧ Ok s' (j + k) := by
  intro k
  induction k with
  | zero => intro s j h; exact ⟨s, rfl, h⟩
  | succ k ih =>
    intro s j h
    obtain ⟨r, s', h1, h2, h3, _, _⟩ := irnStep_ok h
    have h4 : Ok { s' with shuffle := s'.shuffle ++ [r] } (j + 1) := by
      refine ⟨h3.len, by simp [h3.sh], h3.lo, h3.hi, ?_⟩
      intro x hx
      rcases List.mem_append.1 hx with hx | hx
      · exact h3.small x hx
      · simp at hx
        omega
    obtain ⟨s'', h5, h6⟩ := ih _ _ h4
    refine ⟨s'', ?_, by rw [show j + (k + 1) = j + 1 + k by omega]; exact h6⟩
    rw [fillShuffle, h1]
    exact h5

private theorem create_ok (seed : Nat) : ∃ s, Irn.create seed = some s ∧ Ok s S := by
  have h0 : Ok ⟨seed % 2 ^ 32 :: irnTable (M - 1) (seed % 2 ^ 32), [], 0⟩ 0 :=
    ⟨by simp [table_len, M], rfl, Int.le_refl 0, (by decide : (0 : Int) < M), by simp⟩
  obtain ⟨s, h1, h2⟩ := fill_ok S _ 0 h0
  exact ⟨s, h1, by simpa using h2⟩

private theorem draws_ok : ∀ (n : Nat) (s : Irn), Ok s S → ∃ us s', Irn.draws n s = some (us, s') ∧ us.length = n ∧ Ok s' S ∧
    ∀ u ∈ us, 0 < u ∧ u < 2 * DENOM := by
  intro n
  induction n with
  | zero => intro s h; exact ⟨[], s, rfl, rfl, h, by simp⟩
  | succ n ih =>
    intro s h
    obtain ⟨u, s1, h1, h2, h3, h4, _⟩ := next_ok h
    obtain ⟨us, s', h5, h6, h7, h8⟩ := ih s1 h2
    refine ⟨u :: us, s', ?_, by simp [h6], h7, ?_⟩
    · rw [Irn.draws, h1]
      simp [h5]
    · intro v hv
      rcases List.mem_cons.1 hv with rfl | hv
      · exact ⟨h3, h4⟩
      · exact h8 v hv

/-- C39: from every seed and for every number of draws, the shuffled generator stays within its tables and integer ranges (no
outcome is `none`) and all its numbers are strictly between 0 and 1. -/
theorem C39_irn (seed n : Nat) : ∃ s us s', Irn.create seed = some s ∧ Irn.draws n s = some (us, s') ∧ us.length = n ∧
    ∀ u ∈ us, 0 < irnUniform u ∧ irnUniform u < 1 := by
  obtain ⟨s, h1, h2⟩ := create_ok seed
  obtain ⟨us, s', h3, h4, _, h6⟩ := draws_ok n s h2
  refine ⟨s, us, s', h1, h3, h4, fun u hu => ?_⟩
  obtain ⟨h7, h8⟩ := h6 u hu
  have hd : (0 : Rat) < ((2 * DENOM : Nat) : Rat) := by exact_mod_cast (by decide : 0 < 2 * DENOM)
  unfold irnUniform
  constructor
  · exact div_pos (by exact_mod_cast h7) hd
  · rw [div_lt_one hd]
    exact_mod_cast h8

/-- `n` numbers of the generator before shuffling. -/
def irns : Nat → Irn → Option (List Nat × Irn)
  | 0, s => some ([], s)
  | n + 1, s =>
    match s.irnStep with
    | none => none
    | some (r, s) => (irns n s).map fun q => (r :: q.1, q.2)

/-- Specification: the lagged sequence with lags 55 and 31 modulo 2^30 that continues a table of 55 numbers, read from its end. -/
def lagged (t : Nat → Nat) : Nat → Nat
  | k => if h : k < 55 then t (54 - k) else (lagged t (k - 55) + lagged t (k - 31)) % 2 ^ 32 % 2 ^ 30
  termination_by k => k

/-- The table holds the last 55 numbers of the lagged sequence. -/
private structure Lag (t : Nat → Nat) (s : Irn) (n : Nat) : Prop where
  len : s.irn.length = 55
  irl : s.irl = if n = 0 then 0 else ((54 - (n - 1) % 55 : Nat) : Int)
  tab : ∀ j, j < 55 → s.irn[54 - (n + j) % 55]? = some (lagged t (n + j))

private theorem lag_step {t : Nat → Nat} {s : Irn} {n : Nat} (h : Lag t s n) :
    ∃ s', s.irnStep = some (lagged t (n + 55), s') ∧ Lag t s' (n + 1) ∧ s'.shuffle = s.shuffle := by
  unfold Irn.irnStep
  have hM : M = 55 := rfl
  have hL : L = 31 := rfl
  have hD : DENOM = 2 ^ 30 := rfl
  have hi : (if s.irl - 1 < 0 then (M : Int) - 1 else s.irl - 1) = ((54 - n % 55 : Nat) : Int) := by
    rw [h.irl, hM]
    by_cases h0 : n = 0
    · subst h0; rfl
    · rw [if_neg h0]; split <;> omega
  have hp : Int.tmod (((54 - n % 55 : Nat) : Int) + L) M = ((54 - (n + 24) % 55 : Nat) : Int) := by
    rw [hM, hL, Int.tmod_eq_emod_of_nonneg (by omega)]
    omega
  dsimp only
  rw [hi, hp, if_pos ⟨by omega, by omega⟩]
  have h1 : s.irn[((54 - n % 55 : Nat) : Int).toNat]? = some (lagged t n) := by
    have := h.tab 0 (by omega)
    simpa using this
  have h2 : s.irn[((54 - (n + 24) % 55 : Nat) : Int).toNat]? = some (lagged t (n + 24)) := by
    have := h.tab 24 (by omega)
    simpa using this
  rw [h1, h2]
  dsimp only
  have hl : lagged t (n + 55) = (lagged t n + lagged t (n + 24)) % 2 ^ 32 % 2 ^ 30 := by
    rw [lagged, dif_neg (by omega), show n + 55 - 55 = n by omega, show n + 55 - 31 = n + 24 by omega]
  rw [hD, ← hl]
  refine ⟨_, rfl, ⟨?_, ?_, ?_⟩, rfl⟩
  · simp [h.len]
  · simp
  · intro j hj
    simp only [Int.toNat_natCast]
    rw [List.getElem?_set]
    by_cases hj' : j = 54
    · subst hj'
      rw [if_pos (by omega), if_pos (by rw [h.len]; omega), show n + 1 + 54 = n + 55 by omega]
    · rw [if_neg (by omega)]
      have := h.tab (j + 1) (by omega)
      rw [show n + 1 + j = n + (j + 1) by omega]
      exact this

/-- C39: before shuffling, the generator is the lagged sequence `x(k) = x(k - 55) + x(k - 31)` modulo 2^30 that continues its table,
for every table and every number of draws. -/
theorem C39_irn_lagged (irn : List Nat) (hl : irn.length = 55) (sh : List Nat) (n : Nat) :
    ∃ s', irns n ⟨irn, sh, 0⟩ = some ((List.range n).map fun k => lagged (fun i => irn.getD i 0) (55 + k), s') := by
  have key : ∀ (n m : Nat) (s : Irn), Lag (fun i => irn.getD i 0) s m →
      ∃ s', irns n s = some ((List.range n).map fun k => lagged (fun i => irn.getD i 0) (m + 55 + k), s') := by
    intro n
    induction n with
    | zero => intro m s _; exact ⟨s, rfl⟩
    | succ n ih =>
      intro m s h
      obtain ⟨s1, h1, h2, _⟩ := lag_step h
      obtain ⟨s', h3⟩ := ih (m + 1) s1 h2
      refine ⟨s', ?_⟩
      rw [irns, h1]
      dsimp only
      rw [h3, List.range_succ_eq_map, List.map_cons, List.map_map]
      simp only [Option.map_some, Option.some.injEq, Prod.mk.injEq, List.cons.injEq, and_true]
      refine ⟨trivial, List.map_congr_left fun k _ => ?_⟩
      show lagged _ (m + 1 + 55 + k) = lagged _ (m + 55 + (k + 1))
      rw [show m + 1 + 55 + k = m + 55 + (k + 1) by omega]
  obtain ⟨s', h⟩ := key n 0 ⟨irn, sh, 0⟩ ⟨hl, rfl, fun j hj => by
    rw [lagged, dif_pos (by omega)]
    simp only [Nat.zero_add]
    rw [Nat.mod_eq_of_lt hj, List.getElem?_eq_getElem (by omega), List.getD_eq_getElem?_getD, List.getElem?_eq_getElem (by omega)]
    rfl⟩
  exact ⟨s', by simpa using h⟩

example : irns 2 ⟨List.range 55, [], 0⟩ = some ([54 + 30, 53 + 29], ⟨(List.range 53) ++ [82, 84], [], 53⟩) := by decide +kernel

/-- C39: the first table is the seed followed by numbers below 2^30, each from the one before by a multiplication and a mask. -/
theorem C39_table (k p : Nat) : (irnTable k p).length = k ∧ (∀ x ∈ irnTable k p, x < 2 ^ 30) ∧
    ∀ i, i < k → (p :: irnTable k p)[i + 1]? = ((p :: irnTable k p)[i]?).map fun x => (17 * x % 2 ^ 32 % 2 ^ 30) ^^^ 0x1F2E3D4C := by
  induction k generalizing p with
  | zero => exact ⟨rfl, by simp [irnTable], fun i h => by omega⟩
  | succ k ih =>
    rw [irnTable]
    obtain ⟨h1, h2, h3⟩ := ih ((17 * p % 2 ^ 32 % DENOM) ^^^ 0x1F2E3D4C)
    refine ⟨by rw [List.length_cons, h1], ?_, ?_⟩
    · intro x hx
      rcases List.mem_cons.1 hx with rfl | hx
      · exact Nat.xor_lt_two_pow (Nat.mod_lt _ (by decide)) (by decide)
      · exact h2 x hx
    · intro i hi
      cases i with
      | zero => rfl
      | succ i => exact h3 i (by omega)

example : (irnTable 2 1).length = 2 ∧ irnTable 2 1 = [523124061, 222047841] := by decide +kernel

/-! ### `MRG32k32a_` -/

private theorem reduce_range (m : Nat) (hm : 0 < m) (x : Int) : 0 ≤ reduce m x ∧ reduce m x < m := by
  unfold reduce
  dsimp only
  have h : x - Int.tdiv x m * m = Int.tmod x m := by
    have := Int.mul_tdiv_add_tmod x m
    rw [Int.mul_comm] at this
    omega
  rw [h]
  have h1 : (m : Int) ≠ 0 := by omega
  have h2 := Int.tmod_lt_of_pos x (b := m) (by omega)
  have h3 := Int.lt_tmod_of_pos x (b := m) (by omega)
  split <;> omega

private theorem numer_range' (s : Mrg) (hx : 0 ≤ s.x.n0 ∧ s.x.n0 < m1) (hy : 0 ≤ s.y.n0 ∧ s.y.n0 < m2) :
    0 < s.numer ∧ s.numer < m1p1 := by
  have e1 : m1 = 4294967087 := rfl
  have e2 : m2 = 4294944443 := rfl
  have e3 : m1p1 = 4294967088 := rfl
  unfold Mrg.numer
  split <;> omega

private theorem numer_range (s : Mrg) : 0 < s.step.numer ∧ s.step.numer < m1p1 :=
  numer_range' s.step (reduce_range m1 (by decide) _) (reduce_range m2 (by decide) _)

/-- C39: all numbers of the second generator are strictly between 0 and 1, from any state at all, after any number of draws. -/
theorem C39_mrg (s : Mrg) (n : Nat) : (Mrg.draws n s).length = n ∧ ∀ u ∈ Mrg.draws n s, 0 < u ∧ u < 1 := by
  induction n generalizing s with
  | zero => exact ⟨rfl, by simp [Mrg.draws]⟩
  | succ n ih =>
    refine ⟨by simp [Mrg.draws, (ih _).1], ?_⟩
    intro u hu
    rw [Mrg.draws] at hu
    rcases List.mem_cons.1 hu with rfl | hu
    · have h := numer_range s
      have hd : (0 : Rat) < (m1p1 : Rat) := by exact_mod_cast (by decide : 0 < m1p1)
      unfold Mrg.next
      constructor
      · exact div_pos (by exact_mod_cast h.1) hd
      · rw [div_lt_one hd]
        exact_mod_cast h.2
    · exact (ih _).2 u hu

/-- Entries that fit an `unsigned`. -/
private def Fits (t : Tri) : Prop := (0 ≤ t.n0 ∧ t.n0 < 2 ^ 32) ∧ (0 ≤ t.n1 ∧ t.n1 < 2 ^ 32) ∧ (0 ≤ t.n2 ∧ t.n2 < 2 ^ 32)

private theorem fits_step {s : Mrg} (h : Fits s.x ∧ Fits s.y) : Fits s.step.x ∧ Fits s.step.y := by
  have hx := reduce_range m1 (by decide) (a12 * s.x.n1 - a13 * s.x.n2)
  have hy := reduce_range m2 (by decide) (a21 * s.y.n0 - a23 * s.y.n2)
  have e1 : m1 = 4294967087 := rfl
  have e2 : m2 = 4294944443 := rfl
  obtain ⟨⟨h1, h2, h3⟩, h4, h5, h6⟩ := h
  exact ⟨⟨⟨hx.1, by show reduce _ _ < _; omega⟩, h1, h2⟩, ⟨⟨hy.1, by show reduce _ _ < _; omega⟩, h4, h5⟩⟩

/-- C39: from every pair of `unsigned` seeds and after every number of draws, the values whose remainders are taken are integers
below 2^53 in absolute value: they and the products they are made of are exact in double precision. -/
theorem C39_mrg_exact (a b : Nat) (ha : a < 2 ^ 32) (hb : b < 2 ^ 32) (n : Nat) :
    let s := Mrg.steps n (Mrg.reset a b)
    |(a12 * s.x.n1 - a13 * s.x.n2 : Int)| < 2 ^ 53 ∧ |(a12 * s.x.n1 : Int)| < 2 ^ 53 ∧ |(a13 * s.x.n2 : Int)| < 2 ^ 53 ∧
    |(a21 * s.y.n0 - a23 * s.y.n2 : Int)| < 2 ^ 53 ∧ |(a21 * s.y.n0 : Int)| < 2 ^ 53 ∧ |(a23 * s.y.n2 : Int)| < 2 ^ 53 := by
  have h : Fits (Mrg.steps n (Mrg.reset a b)).x ∧ Fits (Mrg.steps n (Mrg.reset a b)).y := by
    induction n with
    | zero =>
      simp only [Mrg.steps, Mrg.reset, Fits]
      omega
    | succ n ih => exact fits_step ih
  obtain ⟨⟨h1, h2, h3⟩, h4, h5, h6⟩ := h
  dsimp only
  simp only [abs_lt, a12, a13, a21, a23]
  omega

/-- The conversion of a double to `long`. -/
def truncToInt (q : Rat) : Int := if 0 ≤ q then ⌊q⌋ else ⌈q⌉

private theorem floor_round (x m : Nat) (hm : 0 < m) (hx : x < 2 ^ 53) (q : Rat) (hq : |q - (x : Rat) / m| ≤ (x : Rat) / m / 2 ^ 53)
    (hex : (m : Nat) ∣ x → q = (x : Rat) / m) : ((x / m : Nat) : Rat) ≤ q ∧ q < ((x / m : Nat) : Rat) + 1 := by
  have hmq : (0 : Rat) < (m : Rat) := by exact_mod_cast hm
  have hxq : (x : Rat) < 2 ^ 53 := by exact_mod_cast hx
  have hdm : x = m * (x / m) + x % m := (Nat.div_add_mod x m).symm
  have hr : x % m < m := Nat.mod_lt _ hm
  have hdq : (x : Rat) = m * ((x / m : Nat) : Rat) + ((x % m : Nat) : Rat) := by exact_mod_cast hdm
  by_cases h0 : x % m = 0
  · have h1 := hex (Nat.dvd_of_mod_eq_zero h0)
    rw [h0] at hdq
    have h2 : q = ((x / m : Nat) : Rat) := by
      rw [h1, hdq]
      field_simp
      simp
    rw [h2]
    constructor <;> linarith
  · have hr1 : (1 : Rat) ≤ ((x % m : Nat) : Rat) := by exact_mod_cast Nat.one_le_iff_ne_zero.2 h0
    have hr2 : ((x % m : Nat) : Rat) + 1 ≤ m := by exact_mod_cast hr
    have herr : (x : Rat) / m / 2 ^ 53 < 1 / m := by
      rw [div_div, mul_comm, ← div_div]
      apply div_lt_div_of_pos_right _ hmq
      rw [div_lt_one (by norm_num)]
      exact hxq
    have hxm : (x : Rat) / m = ((x / m : Nat) : Rat) + ((x % m : Nat) : Rat) / m := by
      conv_lhs => rw [hdq]
      field_simp
    have h3 : (1 : Rat) / m ≤ ((x % m : Nat) : Rat) / m := div_le_div_of_nonneg_right hr1 hmq.le
    have h4 : ((x % m : Nat) : Rat) / m ≤ 1 - 1 / m := by
      rw [div_le_iff₀ hmq, sub_mul, div_mul_cancel₀ _ hmq.ne']
      linarith
    have h5 := abs_le.1 hq
    rw [hxm] at h5 herr
    constructor <;> linarith

/-- C39: the quotient `x / m1_` is rounded before it is truncated; with any rounding to within half a unit in the last place that
leaves integers alone, the truncated value is that of the exact quotient. -/
theorem C39_rounding_harmless (x : Int) (m : Nat) (hm : 0 < m) (hx : |x| < 2 ^ 53) (q : Rat)
    (hq : |q - (x : Rat) / m| ≤ |(x : Rat) / m| / 2 ^ 53) (hex : (m : Int) ∣ x → q = (x : Rat) / m) :
    truncToInt q = Int.tdiv x m := by
  have hmq : (0 : Rat) < (m : Rat) := by exact_mod_cast hm
  rcases Int.eq_nat_or_neg x with ⟨n, rfl | rfl⟩
  · have hn : n < 2 ^ 53 := by
      rw [abs_of_nonneg (by omega)] at hx
      exact_mod_cast hx
    have habs : |((n : Int) : Rat) / m| = (n : Rat) / m := by
      rw [Int.cast_natCast]
      exact abs_of_nonneg (div_nonneg (Nat.cast_nonneg _) hmq.le)
    rw [habs] at hq
    have h := floor_round n m hm hn q (by simpa using hq) (fun hd => by simpa using hex (by exact_mod_cast hd))
    have hq0 : 0 ≤ q := le_trans (Nat.cast_nonneg _) h.1
    unfold truncToInt
    rw [if_pos hq0, (Int.floor_eq_iff (z := ((n / m : Nat) : Int))).2 (by rw [Int.cast_natCast]; exact h)]
    exact (Int.ofNat_tdiv n m).symm
  · have hn : n < 2 ^ 53 := by
      rw [abs_neg, abs_of_nonneg (by omega)] at hx
      exact_mod_cast hx
    have hcast : (((-(n : Int)) : Int) : Rat) / m = -((n : Rat) / m) := by
      rw [Int.cast_neg, Int.cast_natCast, neg_div]
    rw [hcast] at hq hex
    rw [abs_neg, abs_of_nonneg (div_nonneg (Nat.cast_nonneg n) hmq.le)] at hq
    have h := floor_round n m hm hn (-q) (by rw [show -q - (n : Rat) / m = -(q - -((n : Rat) / m)) by ring, abs_neg]; exact hq)
      (fun hd => by rw [hex (Int.dvd_neg.2 (by exact_mod_cast hd)), neg_neg])
    unfold truncToInt
    rw [Int.neg_tdiv, ← Int.ofNat_tdiv]
    by_cases hq0 : 0 ≤ q
    · have hz : ((n / m : Nat) : Rat) ≤ 0 := by linarith [h.1]
      have hz' : (n / m : Nat) = 0 := by
        have : (n / m : Nat) ≤ 0 := by exact_mod_cast hz
        exact Nat.le_zero.1 this
      rw [hz'] at h ⊢
      have hqz : q = 0 := by
        have := h.1
        simp at this
        exact le_antisymm this hq0
      rw [if_pos hq0, hqz]
      simp
    · rw [if_neg hq0, (Int.ceil_eq_iff (z := -((n / m : Nat) : Int))).2]
      rw [Int.cast_neg, Int.cast_natCast]
      constructor <;> linarith [h.1, h.2]

/-! ### `FillUniform` -/

private theorem go_ok {σ : Type} (next : σ → Rat × σ) (hnext : ∀ g, 0 < (next g).1 ∧ (next g).1 < 1) : ∀ (n : Nat) (g : σ),
    (fillUniform.go next n g).1.length = n ∧ ∀ u ∈ (fillUniform.go next n g).1, 0 < u ∧ u < 1 := by
  intro n
  induction n with
  | zero => intro g; exact ⟨rfl, by simp [fillUniform.go]⟩
  | succ n ih =>
    intro g
    obtain ⟨h1, h2⟩ := ih (next g).2
    simp only [fillUniform.go]
    refine ⟨by simp [h1], ?_⟩
    intro u hu
    rcases List.mem_cons.1 hu with rfl | hu
    · exact hnext g
    · exact h2 u hu

/-- Any number of calls of `FillUniform`, all with vectors of size `n`. -/
def fills {σ : Type} (next : σ → Rat × σ) (n : Nat) : Nat → Anti σ → Option (List (List Rat) × Anti σ)
  | 0, s => some ([], s)
  | k + 1, s => (fillUniform next n s).bind fun r => (fills next n k r.2).map fun q => (r.1 :: q.1, q.2)

private theorem fills_ok {σ : Type} (next : σ → Rat × σ) (hnext : ∀ g, 0 < (next g).1 ∧ (next g).1 < 1) (dim n : Nat) (hn : n ≤ dim) :
    ∀ (k : Nat) (s : Anti σ), s.cache.length = dim → (s.anti = true → ∀ u ∈ s.cache.take n, 0 < u ∧ u < 1) →
    ∃ us s', fills next n k s = some (us, s') ∧ us.length = k ∧ ∀ v ∈ us, v.length = n ∧ ∀ u ∈ v, 0 < u ∧ u < 1 := by
  intro k
  induction k with
  | zero => intro s _ _; exact ⟨[], s, rfl, rfl, by simp⟩
  | succ k ih =>
    intro s hs ha
    cases hanti : s.anti with
    | true =>
      have hf : fillUniform next n s = some ((s.cache.take n).map (1 - ·), { s with anti := false }) := by
        unfold fillUniform
        rw [if_neg (by omega), if_pos hanti]
      obtain ⟨us, s', h1, h2, h3⟩ := ih { s with anti := false } hs (by simp)
      refine ⟨(s.cache.take n).map (1 - ·) :: us, s', ?_, by simp [h2], ?_⟩
      · rw [fills, hf]
        simp [h1]
      · intro v hv
        rcases List.mem_cons.1 hv with rfl | hv
        · refine ⟨by simp; omega, ?_⟩
          intro u hu
          obtain ⟨w, hw, rfl⟩ := List.mem_map.1 hu
          have := ha hanti w hw
          constructor <;> linarith [this.1, this.2]
        · exact h3 v hv
    | false =>
      obtain ⟨g1, g2⟩ := go_ok next hnext n s.gen
      have hf : fillUniform next n s = some ((fillUniform.go next n s.gen).1,
          ⟨(fillUniform.go next n s.gen).2, (fillUniform.go next n s.gen).1 ++ s.cache.drop n, true⟩) := by
        unfold fillUniform
        rw [if_neg (by omega), if_neg (by simp [hanti])]
      obtain ⟨us, s', h1, h2, h3⟩ := ih ⟨(fillUniform.go next n s.gen).2, (fillUniform.go next n s.gen).1 ++ s.cache.drop n, true⟩
        (by simp [g1]; omega) (by
          intro _ u hu
          rw [List.take_append_of_le_length (by omega), List.take_of_length_le (by omega)] at hu
          exact g2 u hu)
      refine ⟨(fillUniform.go next n s.gen).1 :: us, s', ?_, by simp [h2], ?_⟩
      · rw [fills, hf]
        simp [h1]
      · intro v hv
        rcases List.mem_cons.1 hv with rfl | hv
        · exact ⟨g1, g2⟩
        · exact h3 v hv

/-- C39: `FillUniform`, with its antithetic second halves, only gives numbers strictly between 0 and 1, as long as all calls are
made with vectors of one size. -/
theorem C39_fill_uniform_partial (s : Mrg) (dim n k : Nat) (hn : n ≤ dim) :
    ∃ us s', fills Mrg.next n k ⟨s, List.replicate dim 0, false⟩ = some (us, s') ∧ us.length = k ∧
      ∀ v ∈ us, v.length = n ∧ ∀ u ∈ v, 0 < u ∧ u < 1 :=
  fills_ok Mrg.next (fun g => by
    have := (C39_mrg g 1).2 (Mrg.next g).1 (by simp [Mrg.draws])
    exact this) dim n hn k _ (by simp) (by simp)

/-- C39, not so: a call with a longer vector after one with a shorter vector gives exactly 1, from the entries of the cache never
drawn: an infinite normal deviate. -/
theorem C39_longer_vector_violated (s : Mrg) : ∃ us s' u s'', fillUniform Mrg.next 1 ⟨s, [0, 0], false⟩ = some (us, s') ∧
    fillUniform Mrg.next 2 s' = some ([u, 1], s'') :=
  ⟨_, _, 1 - (Mrg.next s).1, ⟨(Mrg.next s).2, [(Mrg.next s).1, 0], false⟩, rfl, by
    simp [fillUniform, fillUniform.go]⟩

/-! ### The hypotheses hold -/

example : ∃ q : Rat, |q - ((-7 : Int) : Rat) / (4 : Nat)| ≤ |((-7 : Int) : Rat) / (4 : Nat)| / 2 ^ 53 ∧ ((4 : Nat) : Int) ∣ -8 :=
  ⟨-7 / 4, by norm_num, by decide⟩

end Dal

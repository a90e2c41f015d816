import Verif.Strings.StringProps
import Verif.Storage.SplatModel

/-! # C25: the spreadsheet archive -/

namespace Dal
open Strings Splat

variable {α : Type}

/-! ### Specification -/

/-- The names of the children. -/
def kidNames : Forest α → List Str
  | .nil => []
  | .cons n _ rest => n :: kidNames rest

mutual
/-- Trees as produced by well-behaved objects: values have at least one cell, objects have a type and
at least one child, children have distinct non-empty names, and tags are empty or start with `$` (as
made by `StoreRef`). -/
def TreeOK (sgn : Bool) : STree α → Prop
  | .leaf r c _ => 0 < r ∧ 0 < c
  | .node tag type kids => type ≠ [] ∧ kids ≠ .nil ∧ '~' ∉ tag ∧ (tag = [] ∨ tag.take 1 = ['$']) ∧
      (kidNames kids).Pairwise (fun a b => eqS sgn a b = false) ∧ ForestOK sgn kids
/-- The same for the children. -/
def ForestOK (sgn : Bool) : Forest α → Prop
  | .nil => True
  | .cons n t rest => n ≠ [] ∧ TreeOK sgn t ∧ ForestOK sgn rest
end

mutual
/-- Reading the tree back through the view API gives the tree: type, tag and children of objects;
contents of values as scalar, vector or matrix. -/
def ReadsBack (sgn : Bool) (g : Grid α) : View → STree α → Prop
  | v, .leaf r c cells =>
    (r = 1 → c = 1 → getScalar g v = some (cells 0 0)) ∧
    (r = 1 → (∀ j, 0 < j → j < c → isEmpty (cells 0 j) = false) →
      asVector g v = some ((List.range c).map (cells 0))) ∧
    ((∀ j, 0 < j → j < c → ∃ i < r, isEmpty (cells i j) = false) → v.colStart + 1 < g.cols →
      asMatrix g v = some ((List.range r).map fun i => (List.range c).map (cells i)))
  | v, .node tag type kids =>
    viewType g v = some type ∧ viewTag g v = some tag ∧
    (∀ n, hasChild sgn g v n = some ((kidNames kids).any (fun k => eqS sgn k n))) ∧
    ReadsBackF sgn g v kids
/-- The same for the children. -/
def ReadsBackF (sgn : Bool) (g : Grid α) : View → Forest α → Prop
  | _, .nil => True
  | v, .cons n t rest => (∃ v', child sgn g v n = some v' ∧ ReadsBack sgn g v' t) ∧ ReadsBackF sgn g v rest
end

/-! ### What is written where -/

mutual
theorem rows_pos (sgn : Bool) : ∀ t : STree α, TreeOK sgn t → 0 < rowsOf t
  | .leaf r c _, h => by
    simp only [TreeOK] at h
    have : emptyLeaf r c = false := by
      simp only [emptyLeaf, beq_eq_false_iff_ne]
      exact Nat.mul_ne_zero (by omega) (by omega)
    simp [rowsOf, this, h.1]
  | .node tag type kids, h => by
    simp only [TreeOK] at h
    simp only [rowsOf]
    exact rowsF_pos sgn kids h.2.2.2.2.2 h.2.1
theorem rowsF_pos (sgn : Bool) : ∀ f : Forest α, ForestOK sgn f → f ≠ .nil → 0 < rowsOfF f
  | .nil, _, h => absurd rfl h
  | .cons n t rest, h, _ => by
    simp only [ForestOK] at h
    simp only [rowsOfF]
    have := rows_pos sgn t h.2.1
    omega
end

mutual
theorem no_throw (sgn : Bool) : ∀ t : STree α, TreeOK sgn t → rowsThrow t = false
  | .leaf _ _ _, _ => by simp [rowsThrow]
  | .node tag type kids, h => by
    simp only [TreeOK] at h
    cases kids with
    | nil => exact absurd rfl h.2.1
    | cons n t rest =>
      have := no_throwF sgn (.cons n t rest) h.2.2.2.2.2
      simp only [rowsThrow, this, Bool.or_false, List.isEmpty_eq_false_iff]
      exact h.1
theorem no_throwF (sgn : Bool) : ∀ f : Forest α, ForestOK sgn f → rowsThrowF f = false
  | .nil, _ => by simp [rowsThrowF]
  | .cons n t rest, h => by
    simp only [ForestOK] at h
    simp [rowsThrowF, no_throw sgn t h.2.1, no_throwF sgn rest h.2.2]
end

theorem colsF_ge : ∀ (f : Forest α) (ret : Nat), ret ≤ colsOfF f ret
  | .nil, ret => by simp [colsOfF]
  | .cons n t rest, ret => by
    simp only [colsOfF]
    have := colsF_ge rest (ret + max ret (colsOf t))
    omega

mutual
/-- The columns a tree takes. -/
def widthOf : STree α → Nat
  | .leaf _ C _ => C
  | .node _ _ kids => 2 + widthOfF kids
/-- The same for the children. -/
def widthOfF : Forest α → Nat
  | .nil => 0
  | .cons _ t rest => max (widthOf t) (widthOfF rest)
end

mutual
theorem width_le (sgn : Bool) : ∀ t : STree α, TreeOK sgn t → widthOf t ≤ colsOf t
  | .leaf R C cells, h => by
    simp only [TreeOK] at h
    have he : emptyLeaf R C = false := by
      simp only [emptyLeaf, beq_eq_false_iff_ne]
      exact Nat.mul_ne_zero (by omega) (by omega)
    simp [widthOf, colsOf, he]
  | .node tag type kids, h => by
    simp only [TreeOK] at h
    have := widthF_le sgn kids 0 h.2.2.2.2.2
    simp only [widthOf, colsOf]
    omega
theorem widthF_le (sgn : Bool) : ∀ (f : Forest α) (ret : Nat), ForestOK sgn f → widthOfF f ≤ colsOfF f ret
  | .nil, _, _ => by simp [widthOfF]
  | .cons n t rest, ret, h => by
    simp only [ForestOK] at h
    have h1 := width_le sgn t h.2.1
    have h2 := widthF_le sgn rest (ret + max ret (colsOf t)) h.2.2
    have h3 := colsF_ge rest (ret + max ret (colsOf t))
    simp only [widthOfF, colsOfF]
    omega
end

/-- The region in which a tree writes. -/
def InRegion (r c h w : Nat) (x : Nat × Nat × Cell α) : Prop :=
  r ≤ x.1 ∧ x.1 < r + h ∧ c ≤ x.2.1 ∧ x.2.1 < c + w

mutual
theorem writes_region (sgn : Bool) : ∀ (t : STree α) (r c : Nat), TreeOK sgn t →
    ∀ x ∈ writes t r c, InRegion r c (rowsOf t) (colsOf t) x
  | .leaf R C cells, r, c, h => by
    have hp := rows_pos sgn (.leaf R C cells) h
    simp only [rowsOf] at hp
    have he : emptyLeaf R C = false := by
      cases hl0 : emptyLeaf R C with
      | false => rfl
      | true => rw [hl0] at hp; simp at hp
    intro x hx
    simp only [writes, he, Bool.false_eq_true, if_false, List.mem_flatMap, List.mem_map,
      List.mem_range] at hx
    obtain ⟨i, hi, j, hj, rfl⟩ := hx
    simp only [InRegion, rowsOf, colsOf, he, Bool.false_eq_true, if_false]
    omega
  | .node tag type kids, r, c, h => by
    have hp := rows_pos sgn (.node tag type kids) h
    simp only [TreeOK] at h
    intro x hx
    simp only [writes, List.mem_cons] at hx
    rcases hx with rfl | hx
    · simp only [InRegion, colsOf]; omega
    · obtain ⟨h1, h2, h3, h4⟩ := writesF_region sgn kids r c 0 h.2.2.2.2.2 x hx
      simp only [InRegion, rowsOf, colsOf]
      omega
theorem writesF_region (sgn : Bool) : ∀ (f : Forest α) (r c ret : Nat), ForestOK sgn f →
    ∀ x ∈ writesF f r c, r ≤ x.1 ∧ x.1 < r + rowsOfF f ∧ c + 1 ≤ x.2.1 ∧ x.2.1 < c + 2 + colsOfF f ret
  | .nil, _, _, _, _ => by intro x hx; simp [writesF] at hx
  | .cons n t rest, r, c, ret, h => by
    simp only [ForestOK] at h
    have hp := rows_pos sgn t h.2.1
    intro x hx
    simp only [writesF, List.mem_cons, List.mem_append] at hx
    simp only [rowsOfF, colsOfF]
    have hge := colsF_ge rest (ret + max ret (colsOf t))
    rcases hx with rfl | hx | hx
    · simp only; omega
    · obtain ⟨h1, h2, h3, h4⟩ := writes_region sgn t r (2 + c) h.2.1 x hx
      omega
    · obtain ⟨h1, h2, h3, h4⟩ := writesF_region sgn rest (r + rowsOf t) c (ret + max ret (colsOf t)) h.2.2 x hx
      omega
end

/-- Writing a well-behaved tree neither throws nor leaves the grid. -/
theorem C25_splat_defined (sgn : Bool) (t : STree α) (h : TreeOK sgn t) : ∃ g, splat t = some g ∧
    g.rows = rowsOf t ∧ g.cols = colsOf t := by
  have hb : (writes t 0 0).all (fun w => decide (w.1 < rowsOf t) && decide (w.2.1 < colsOf t)) = true := by
    rw [List.all_eq_true]
    intro x hx
    obtain ⟨h1, h2, h3, h4⟩ := writes_region sgn t 0 0 h x hx
    simp only [Bool.and_eq_true, decide_eq_true_eq]
    omega
  refine ⟨⟨rowsOf t, colsOf t, (writes t 0 0).foldl put fun _ _ => .blank⟩, ?_, rfl, rfl⟩
  rw [splat, no_throw sgn t h, if_neg (by simp), if_pos hb]

/-! ### The written grid shows the tree -/

mutual
/-- The cells at `(r, c)` and to the right show the tree. -/
def Shows (g : Cells α) : STree α → Nat → Nat → Prop
  | .leaf R C cells, r, c => ∀ i < R, ∀ j, g (r + i) (c + j) = if j < C then cells i j else .blank
  | .node tag type kids, r, c => g r c = .str (tag ++ '~' :: type) ∧ ShowsF g kids r c
/-- The same for the children. -/
def ShowsF (g : Cells α) : Forest α → Nat → Nat → Prop
  | .nil, _, _ => True
  | .cons n t rest, r, c => g r (c + 1) = .str n ∧ (∀ i, 0 < i → i < rowsOf t → g (r + i) (c + 1) = .blank) ∧
      Shows g t r (c + 2) ∧ ShowsF g rest (r + rowsOf t) c
end

mutual
theorem shows_congr (sgn : Bool) (g g' : Cells α) : ∀ (t : STree α) (r c : Nat), TreeOK sgn t →
    (∀ i j, r ≤ i → i < r + rowsOf t → c ≤ j → g i j = g' i j) → Shows g t r c → Shows g' t r c
  | .leaf R C cells, r, c, h, he, hs => by
    have hp := rows_pos sgn (.leaf R C cells) h
    have hl : emptyLeaf R C = false := by
      simp only [rowsOf] at hp
      cases hl0 : emptyLeaf R C with
      | false => rfl
      | true => rw [hl0] at hp; simp at hp
    simp only [rowsOf, hl, Bool.false_eq_true, if_false] at he
    simp only [Shows] at hs ⊢
    intro i hi j
    rw [← hs i hi j, he _ _ (by omega) (by omega) (by omega)]
  | .node tag type kids, r, c, h, he, hs => by
    have hp := rows_pos sgn (.node tag type kids) h
    simp only [TreeOK] at h
    simp only [rowsOf] at he hp
    simp only [Shows] at hs ⊢
    refine ⟨by rw [← hs.1, he _ _ (by omega) (by omega) (by omega)], ?_⟩
    exact showsF_congr sgn g g' kids r c h.2.2.2.2.2 (fun i j h1 h2 h3 => he i j h1 h2 (by omega)) hs.2
theorem showsF_congr (sgn : Bool) (g g' : Cells α) : ∀ (f : Forest α) (r c : Nat), ForestOK sgn f →
    (∀ i j, r ≤ i → i < r + rowsOfF f → c + 1 ≤ j → g i j = g' i j) → ShowsF g f r c → ShowsF g' f r c
  | .nil, _, _, _, _, _ => by simp [ShowsF]
  | .cons n t rest, r, c, h, he, hs => by
    simp only [ForestOK] at h
    simp only [rowsOfF] at he
    have hp := rows_pos sgn t h.2.1
    simp only [ShowsF] at hs ⊢
    obtain ⟨h1, h2, h3, h4⟩ := hs
    refine ⟨by rw [← h1, he _ _ (by omega) (by omega) (by omega)], ?_, ?_, ?_⟩
    · intro i hi hi'
      rw [← h2 i hi hi', he _ _ (by omega) (by omega) (by omega)]
    · exact shows_congr sgn g g' t r (c + 2) h.2.1 (fun i j a b d => he i j (by omega) (by omega) (by omega)) h3
    · exact showsF_congr sgn g g' rest (r + rowsOf t) c h.2.2
        (fun i j a b d => he i j (by omega) (by omega) (by omega)) h4
end

theorem foldl_put_other (ws : List (Nat × Nat × Cell α)) (g : Cells α) (i j : Nat)
    (h : ∀ x ∈ ws, ¬ (i = x.1 ∧ j = x.2.1)) : ws.foldl put g i j = g i j := by
  induction ws generalizing g with
  | nil => rfl
  | cons w ws ih =>
    rw [List.foldl_cons, ih _ (fun x hx => h x (by simp [hx])), put, if_neg (h w (by simp))]

/-- Independent writes: the value written is found. -/
theorem foldl_put_mem (ws : List (Nat × Nat × Cell α)) (g : Cells α) (i j : Nat) (v : Cell α)
    (hm : (i, j, v) ∈ ws) (hu : ∀ x ∈ ws, i = x.1 → j = x.2.1 → x.2.2 = v) : ws.foldl put g i j = v := by
  induction ws generalizing g with
  | nil => simp at hm
  | cons w ws ih =>
    rw [List.foldl_cons]
    by_cases hw : (i, j, v) ∈ ws
    · exact ih _ hw (fun x hx => hu x (by simp [hx]))
    · have hw' : (i, j, v) = w := by simpa [hw] using hm
      subst hw'
      rw [foldl_put_other]
      · simp [put]
      · rintro ⟨a, b, d⟩ hx ⟨h1, h2⟩
        simp only at h1 h2
        subst h1 h2
        have := hu (i, j, d) (by simp [hx]) rfl rfl
        simp only at this
        subst this
        exact hw hx

mutual
theorem writes_shows (sgn : Bool) : ∀ (t : STree α) (r c : Nat) (g : Cells α), TreeOK sgn t →
    (∀ i j, r ≤ i → i < r + rowsOf t → c ≤ j → g i j = .blank) → Shows ((writes t r c).foldl put g) t r c
  | .leaf R C cells, r, c, g, h, hb => by
    have hp := rows_pos sgn (.leaf R C cells) h
    have he : emptyLeaf R C = false := by
      simp only [rowsOf] at hp
      cases hl0 : emptyLeaf R C with
      | false => rfl
      | true => rw [hl0] at hp; simp at hp
    simp only [rowsOf, he, Bool.false_eq_true, if_false] at hb
    have hw : writes (.leaf R C cells) r c =
        (List.range R).flatMap fun i => (List.range C).map fun j => (r + i, c + j, cells i j) := by
      simp [writes, he]
    rw [hw]
    simp only [Shows]
    intro i hi j
    split_ifs with hj
    · apply foldl_put_mem
      · simp only [List.mem_flatMap, List.mem_map, List.mem_range]
        exact ⟨i, hi, j, hj, rfl⟩
      · intro x hx h1 h2
        simp only [List.mem_flatMap, List.mem_map, List.mem_range] at hx
        obtain ⟨i', hi', j', hj', rfl⟩ := hx
        simp only at h1 h2 ⊢
        have e1 : i' = i := by omega
        have e2 : j' = j := by omega
        rw [e1, e2]
    · rw [foldl_put_other]
      · exact hb _ _ (by omega) (by omega) (by omega)
      · intro x hx
        simp only [List.mem_flatMap, List.mem_map, List.mem_range] at hx
        obtain ⟨i', hi', j', hj', rfl⟩ := hx
        simp only
        omega
  | .node tag type kids, r, c, g, h, hb => by
    have hp := rows_pos sgn (.node tag type kids) h
    simp only [TreeOK] at h
    simp only [rowsOf] at hb hp
    simp only [writes, List.foldl_cons, Shows]
    constructor
    · rw [foldl_put_other]
      · simp [put]
      · intro x hx
        have := writesF_region sgn kids r c 0 h.2.2.2.2.2 x hx
        omega
    · apply writesF_shows sgn kids r c _ h.2.2.2.2.2
      intro i j h1 h2 h3
      rw [put, if_neg (by simp only; omega)]
      exact hb i j h1 h2 (by omega)
theorem writesF_shows (sgn : Bool) : ∀ (f : Forest α) (r c : Nat) (g : Cells α), ForestOK sgn f →
    (∀ i j, r ≤ i → i < r + rowsOfF f → c + 1 ≤ j → g i j = .blank) →
      ShowsF ((writesF f r c).foldl put g) f r c
  | .nil, _, _, _, _, _ => by simp [ShowsF]
  | .cons n t rest, r, c, g, h, hb => by
    simp only [ForestOK] at h
    have hp := rows_pos sgn t h.2.1
    simp only [rowsOfF] at hb
    simp only [writesF, List.foldl_cons, List.foldl_append, ShowsF]
    have hreg := writes_region sgn t r (2 + c) h.2.1
    have hregF := writesF_region sgn rest (r + rowsOf t) c 0 h.2.2
    refine ⟨?_, ?_, ?_, ?_⟩
    · rw [foldl_put_other, foldl_put_other]
      · simp [put, Nat.add_comm]
      · intro x hx; have := hreg x hx; unfold InRegion at this; omega
      · intro x hx; have := hregF x hx; omega
    · intro i hi hi'
      rw [foldl_put_other, foldl_put_other]
      · rw [put, if_neg (by simp only; omega)]
        exact hb _ _ (by omega) (by omega) (by omega)
      · intro x hx; have := hreg x hx; unfold InRegion at this; omega
      · intro x hx; have := hregF x hx; omega
    · have h1 := writes_shows sgn t r (c + 2) (put g (r, 1 + c, .str n)) h.2.1 (by
        intro i j a b d
        rw [put, if_neg (by simp only; omega)]
        exact hb i j (by omega) (by omega) (by omega))
      rw [Nat.add_comm 2 c]
      refine shows_congr sgn _ _ t r (c + 2) h.2.1 ?_ h1
      intro i j a b d
      rw [foldl_put_other (writesF rest _ _)]
      intro x hx; have := hregF x hx; omega
    · apply writesF_shows sgn rest (r + rowsOf t) c _ h.2.2
      intro i j a b d
      rw [foldl_put_other]
      · rw [put, if_neg (by simp only; omega)]
        exact hb i j (by omega) (by omega) (by omega)
      · intro x hx; have := hreg x hx; unfold InRegion at this; omega
end

/-! ### Reading a grid that shows the tree -/

theorem skipBlank_eq (g : Grid α) (col : Nat) : ∀ (n jr k : Nat), k ≤ n →
    (∀ i < k, isEmpty (g.cell (jr + i) col) = true) → (k < n → isEmpty (g.cell (jr + k) col) = false) →
    skipBlank g col n jr = jr + k := by
  intro n
  induction n with
  | zero => intro jr k hk _ _; simp [skipBlank]; omega
  | succ n ih =>
    intro jr k hk h1 h2
    rw [skipBlank]
    cases k with
    | zero =>
      have := h2 (by omega)
      rw [Nat.add_zero] at this
      simp [this]
    | succ k =>
      have h0 := h1 0 (by omega)
      rw [Nat.add_zero] at h0
      rw [if_pos h0, ih (jr + 1) k (by omega)]
      · omega
      · intro i hi; have := h1 (i + 1) (by omega); rw [show jr + 1 + i = jr + (i + 1) by omega]; exact this
      · intro hk'; have := h2 (by omega); rw [show jr + 1 + k = jr + (k + 1) by omega]; exact this

theorem str_ne_nil_isEmpty {n : Str} (h : n ≠ []) : isEmpty (Cell.str n : Cell α) = false := by
  cases n with
  | nil => exact absurd rfl h
  | cons a n => rfl

/-- First row of a forest in its name column: the name of the first child. -/
theorem showsF_head (sgn : Bool) (g : Cells α) (f : Forest α) (r c : Nat) (h : ForestOK sgn f) (hn : f ≠ .nil)
    (hs : ShowsF g f r c) : isEmpty (g r (c + 1)) = false := by
  cases f with
  | nil => exact absurd rfl hn
  | cons n t rest =>
    simp only [ForestOK] at h
    simp only [ShowsF] at hs
    rw [hs.1]; exact str_ne_nil_isEmpty h.1

/-- Searching a name over the rows of a forest. -/
theorem findName_forest (sgn : Bool) (g : Grid α) (name : Str) (c : Nat) : ∀ (f : Forest α) (r : Nat),
    ForestOK sgn f → ShowsF g.cell f r c →
    (findName sgn g name (c + 1) (rowsOfF f) r).isSome = (kidNames f).any (fun k => eqS sgn k name)
  | .nil, _, _, _ => by simp [rowsOfF, findName, kidNames]
  | .cons n t rest, r, h, hs => by
    simp only [ForestOK] at h
    simp only [ShowsF] at hs
    have hp := rows_pos sgn t h.2.1
    obtain ⟨m, hm⟩ : ∃ m, rowsOf t = m + 1 := ⟨rowsOf t - 1, by omega⟩
    have ih := findName_forest sgn g name c rest (r + rowsOf t) h.2.2 hs.2.2.2
    have e : rowsOfF (.cons n t rest) = m + rowsOfF rest + 1 := by simp only [rowsOfF]; omega
    have hstr : isStr sgn (g.cell r (c + 1)) name = eqS sgn n name := by rw [hs.1]; rfl
    rw [e, findName, hstr]
    simp only [kidNames, List.any_cons]
    by_cases hq : eqS sgn n name = true
    · simp [hq]
    · rw [if_neg hq]
      have hskip : ∀ k, k ≤ m → findName sgn g name (c + 1) (k + rowsOfF rest) (r + (m + 1 - k)) =
          findName sgn g name (c + 1) (rowsOfF rest) (r + (m + 1)) := by
        intro k
        induction k with
        | zero => intro _; simp
        | succ k ihk =>
          intro hk
          rw [show k + 1 + rowsOfF rest = k + rowsOfF rest + 1 by omega, findName,
            hs.2.1 (m + 1 - (k + 1)) (by omega) (by omega)]
          simp only [isStr, Bool.false_eq_true, if_false]
          rw [show r + (m + 1 - (k + 1)) + 1 = r + (m + 1 - k) by omega]
          exact ihk (by omega)
      have := hskip m (by omega)
      rw [show r + (m + 1 - m) = r + 1 by omega] at this
      rw [this, ← hm, ih]
      simp [hq]

theorem findName_skip (sgn : Bool) (g : Grid α) (name : Str) (col : Nat) : ∀ (k n r : Nat),
    (∀ i < k, isStr sgn (g.cell (r + i) col) name = false) →
    findName sgn g name col (k + n) r = findName sgn g name col n (r + k) := by
  intro k
  induction k with
  | zero => intro n r _; simp
  | succ k ih =>
    intro n r h
    rw [show k + 1 + n = k + n + 1 by omega, findName]
    have h0 := h 0 (by omega)
    rw [Nat.add_zero] at h0
    rw [h0, if_neg (by simp), ih n (r + 1)]
    · congr 1; omega
    · intro i hi; rw [show r + 1 + i = r + (i + 1) by omega]; exact h (i + 1) (by omega)

/-- The rows of a leading part of a forest do not contain a name that differs from all its names. -/
theorem no_name (sgn : Bool) (g : Cells α) (name : Str) (c : Nat) : ∀ (f : Forest α) (r : Nat), ForestOK sgn f →
    ShowsF g f r c → (∀ k ∈ kidNames f, eqS sgn k name = false) →
    ∀ i < rowsOfF f, isStr sgn (g (r + i) (c + 1)) name = false
  | .nil, _, _, _, _ => by intro i hi; simp [rowsOfF] at hi
  | .cons n t rest, r, h, hs, hk => by
    simp only [ForestOK] at h
    simp only [ShowsF] at hs
    intro i hi
    simp only [rowsOfF] at hi
    by_cases h0 : i = 0
    · subst h0
      rw [Nat.add_zero, hs.1]
      exact hk n (by simp [kidNames])
    · by_cases h1 : i < rowsOf t
      · rw [hs.2.1 i (by omega) h1]; rfl
      · have := no_name sgn g name c rest (r + rowsOf t) h.2.2 hs.2.2.2
          (fun k hk' => hk k (by simp [kidNames, hk'])) (i - rowsOf t) (by omega)
        rw [show r + rowsOf t + (i - rowsOf t) = r + i by omega] at this
        exact this

theorem vectorStop_eq (g : Grid α) (row : Nat) : ∀ (n col k : Nat), k ≤ n →
    (∀ j < k, isEmpty (g.cell row (col + j)) = false) → (k < n → isEmpty (g.cell row (col + k)) = true) →
    vectorStop g row n col = col + k := by
  intro n
  induction n with
  | zero => intro col k hk _ _; simp [vectorStop]; omega
  | succ n ih =>
    intro col k hk h1 h2
    rw [vectorStop]
    cases k with
    | zero =>
      have := h2 (by omega)
      rw [Nat.add_zero] at this
      simp [this]
    | succ k =>
      have h0 := h1 0 (by omega)
      rw [Nat.add_zero] at h0
      rw [h0, if_neg (by simp), ih (col + 1) k (by omega)]
      · omega
      · intro i hi; have := h1 (i + 1) (by omega); rw [show col + 1 + i = col + (i + 1) by omega]; exact this
      · intro hk'; have := h2 (by omega); rw [show col + 1 + k = col + (k + 1) by omega]; exact this

theorem matrixStop_eq (g : Grid α) (v : View) : ∀ (n col k : Nat), k ≤ n →
    (∀ j < k, columnEmpty g v (col + j) = false) → (k < n → columnEmpty g v (col + k) = true) →
    matrixStopFrom g v n col = col + k := by
  intro n
  induction n with
  | zero => intro col k hk _ _; simp [matrixStopFrom]; omega
  | succ n ih =>
    intro col k hk h1 h2
    rw [matrixStopFrom]
    cases k with
    | zero =>
      have := h2 (by omega)
      rw [Nat.add_zero] at this
      simp [this]
    | succ k =>
      have h0 := h1 0 (by omega)
      rw [Nat.add_zero] at h0
      rw [h0, if_neg (by simp), ih (col + 1) k (by omega)]
      · omega
      · intro i hi; have := h1 (i + 1) (by omega); rw [show col + 1 + i = col + (i + 1) by omega]; exact this
      · intro hk'; have := h2 (by omega); rw [show col + 1 + k = col + (k + 1) by omega]; exact this

theorem leaf_reads (sgn : Bool) (g : Grid α) (R C : Nat) (cells : Nat → Nat → Cell α) (r c : Nat)
    (h : 0 < R ∧ 0 < C) (hs : Shows g.cell (.leaf R C cells) r c) (hr : r + R ≤ g.rows)
    (hc : c + C ≤ g.cols) : ReadsBack sgn g ⟨r, r + R, c⟩ (.leaf R C cells) := by
  simp only [Shows] at hs
  simp only [ReadsBack]
  refine ⟨?_, ?_, ?_⟩
  · rintro rfl rfl
    have h00 := hs 0 (by omega) 0
    simp only [Nat.add_zero, Nat.lt_one_iff, if_true] at h00
    have hat : cellAt g r c = some (cells 0 0) := by
      rw [cellAt, if_pos (by omega), h00]
    rw [getScalar]
    simp only
    rw [if_neg (by simp)]
    split_ifs with hl
    · exact hat
    · have h01 := hs 0 (by omega) 1
      simp only [Nat.add_zero, lt_irrefl, if_false] at h01
      have : cellAt g r (c + 1) = some .blank := by rw [cellAt, if_pos (by omega), h01]
      rw [this]
      simp only [isEmpty, if_true]
      exact hat
  · rintro rfl hne
    rw [asVector]
    simp only
    rw [if_neg (by simp)]
    have hstop : vectorStop g r (g.cols - (c + 1)) (c + 1) = c + 1 + (C - 1) := by
      apply vectorStop_eq
      · omega
      · intro j hj
        have := hs 0 (by omega) (j + 1)
        rw [if_pos (by omega), Nat.add_zero] at this
        rw [show c + 1 + j = c + (j + 1) by omega, this]
        exact hne (j + 1) (by omega) (by omega)
      · intro _
        have := hs 0 (by omega) C
        rw [if_neg (by omega), Nat.add_zero] at this
        rw [show c + 1 + (C - 1) = c + C by omega, this]; rfl
    rw [hstop, show c + 1 + (C - 1) - c = C by omega]
    congr 1
    apply List.map_congr_left
    intro j hj
    have := hs 0 (by omega) j
    rw [if_pos (List.mem_range.1 hj), Nat.add_zero] at this
    exact this
  · intro hne hcc
    rw [asMatrix, matrixStop]
    simp only
    rw [if_pos hcc]
    have hcol : ∀ j, columnEmpty g ⟨r, r + R, c⟩ (c + j) =
        (List.range R).all (fun i => isEmpty (if j < C then cells i j else .blank)) := by
      intro j
      rw [columnEmpty]
      simp only
      rw [show r + R - r = R by omega, Bool.eq_iff_iff, List.all_eq_true, List.all_eq_true]
      refine forall_congr' fun i => ?_
      refine imp_congr_right fun hi => ?_
      rw [hs i (List.mem_range.1 hi) j]
    have hstop : matrixStopFrom g ⟨r, r + R, c⟩ (g.cols - (c + 1)) (c + 1) = c + 1 + (C - 1) := by
      apply matrixStop_eq
      · omega
      · intro j hj
        rw [show c + 1 + j = c + (j + 1) by omega, hcol]
        obtain ⟨i, hi, hie⟩ := hne (j + 1) (by omega) (by omega)
        rw [← Bool.not_eq_true, List.all_eq_true]
        intro hall
        have := hall i (List.mem_range.2 hi)
        rw [if_pos (by omega), hie] at this
        cases this
      · intro _
        rw [show c + 1 + (C - 1) = c + C by omega, hcol, List.all_eq_true]
        intro i _
        rw [if_neg (by omega)]; rfl
    rw [hstop, Option.map_some, show c + 1 + (C - 1) - c = C by omega, show r + R - r = R by omega]
    congr 1
    apply List.map_congr_left
    intro i hi
    apply List.map_congr_left
    intro j hj
    have := hs i (List.mem_range.1 hi) j
    rw [if_pos (List.mem_range.1 hj)] at this
    exact this

theorem dropWhile_tilde (tag type : Str) (h : '~' ∉ tag) :
    ((tag ++ '~' :: type).dropWhile (· ≠ '~')).tail = type ∧
    (tag ++ '~' :: type).takeWhile (· ≠ '~') = tag := by
  induction tag with
  | nil => simp
  | cons a tag ih =>
    have ha : a ≠ '~' := fun e => h (by simp [e])
    obtain ⟨h1, h2⟩ := ih (fun hm => h (by simp [hm]))
    constructor
    · rw [List.cons_append, List.dropWhile_cons, if_pos (by simpa using ha)]; exact h1
    · rw [List.cons_append, List.takeWhile_cons, if_pos (by simpa using ha), h2]

/-- A forest inside a larger one: the rows before it do not show any of its names. -/
theorem forest_step (sgn : Bool) (g : Grid α) (v : View) (h0 : viewType g v ≠ none)
    (h1 : viewType g v ≠ some []) (hc : v.colStart + 1 < g.cols) (n : Str) (t : STree α) (rest : Forest α)
    (ht : TreeOK sgn t) (hf : ForestOK sgn rest)
    (r : Nat) (hr : v.rowStart ≤ r) (hstop : v.rowStop = r + rowsOf t + rowsOfF rest)
    (hs : ShowsF g.cell (.cons n t rest) r v.colStart)
    (hbefore : ∀ i < r - v.rowStart, isStr sgn (g.cell (v.rowStart + i) (v.colStart + 1)) n = false) :
    child sgn g v n = some ⟨r, r + rowsOf t, v.colStart + 2⟩ := by
  simp only [ShowsF] at hs
  have hp := rows_pos sgn t ht
  have hfind : findName sgn g n (v.colStart + 1) (v.rowStop - v.rowStart) v.rowStart = some r := by
    have e : v.rowStop - v.rowStart = (r - v.rowStart) + (rowsOf t - 1 + rowsOfF rest + 1) := by omega
    rw [e, findName_skip sgn g n _ _ _ _ hbefore, show v.rowStart + (r - v.rowStart) = r by omega, findName,
      hs.1]
    have := (C15_eq_equivalence sgn).refl n
    rw [if_pos (by simpa [isStr] using this)]
  have hskip : skipBlank g (v.colStart + 1) (v.rowStop - (r + 1)) (r + 1) = r + rowsOf t := by
    rw [skipBlank_eq g _ _ _ (rowsOf t - 1) (by omega)]
    · omega
    · intro i hi
      rw [show r + 1 + i = r + (i + 1) by omega, hs.2.1 (i + 1) (by omega) (by omega)]; rfl
    · intro hlt
      rw [show r + 1 + (rowsOf t - 1) = r + rowsOf t by omega]
      apply showsF_head sgn g.cell rest (r + rowsOf t) v.colStart hf _ hs.2.2.2
      rintro rfl
      simp only [rowsOfF] at hstop
      omega
  rw [child]
  cases hv : viewType g v with
  | none => exact absurd hv h0
  | some ty =>
    cases ty with
    | nil => exact absurd hv h1
    | cons a ty =>
      simp only
      rw [if_pos hc, hfind]
      simp only [hskip]

mutual
theorem shows_reads (sgn : Bool) (g : Grid α) : ∀ (t : STree α) (r c : Nat), TreeOK sgn t → Shows g.cell t r c →
    r + rowsOf t ≤ g.rows → c + widthOf t ≤ g.cols → ReadsBack sgn g ⟨r, r + rowsOf t, c⟩ t
  | .leaf R C cells, r, c, h, hs, hr, hc => by
    have hp := rows_pos sgn (.leaf R C cells) h
    have he : emptyLeaf R C = false := by
      simp only [rowsOf] at hp
      cases hl0 : emptyLeaf R C with
      | false => rfl
      | true => rw [hl0] at hp; simp at hp
    simp only [rowsOf, widthOf, he, Bool.false_eq_true, if_false] at hr hc ⊢
    simp only [TreeOK] at h
    exact leaf_reads sgn g R C cells r c h hs hr hc
  | .node tag type kids, r, c, h, hs, hr, hc => by
    have hp := rows_pos sgn (.node tag type kids) h
    simp only [TreeOK] at h
    obtain ⟨ht, hk, htt, htag, hpw, hf⟩ := h
    simp only [Shows] at hs
    simp only [rowsOf, widthOf] at hr hc hp
    have hat : cellAt g r c = some (.str (tag ++ '~' :: type)) := by
      rw [cellAt, if_pos (by omega), hs.1]
    obtain ⟨hd1, hd2⟩ := dropWhile_tilde tag type htt
    have hty : viewType g ⟨r, r + rowsOfF kids, c⟩ = some type := by
      simp only [viewType, hat, Option.map_some, hd1]
    simp only [ReadsBack, rowsOf]
    refine ⟨hty, ?_, ?_, ?_⟩
    · simp only [viewTag, hat, Option.map_some, hd2]
      rcases htag with rfl | htag
      · simp
      · cases tag with
        | nil => simp at htag
        | cons a tag =>
          simp only [List.take_succ_cons, List.take_zero] at htag
          simp [htag]
    · intro n
      rw [hasChild, hty]
      cases type with
      | nil => exact absurd rfl ht
      | cons a type =>
        simp only
        rw [if_pos (by omega), show r + rowsOfF kids - r = rowsOfF kids by omega,
          findName_forest sgn g n c kids r hf hs.2]
    · refine forest_reads sgn g ⟨r, r + rowsOfF kids, c⟩ (by rw [hty]; simp) (by rw [hty]; simp [ht])
        (by simp only; omega) kids r (le_refl _) rfl hf hs.2 hpw (by omega) (by simp only; omega) ?_
      intro n _ i hi
      simp only at hi
      omega
theorem forest_reads (sgn : Bool) (g : Grid α) (v : View) (h0 : viewType g v ≠ none)
    (h1 : viewType g v ≠ some []) (hcc : v.colStart + 1 < g.cols) : ∀ (f : Forest α) (r : Nat), v.rowStart ≤ r →
    v.rowStop = r + rowsOfF f → ForestOK sgn f → ShowsF g.cell f r v.colStart →
    (kidNames f).Pairwise (fun a b => eqS sgn a b = false) →
    r + rowsOfF f ≤ g.rows → v.colStart + 2 + widthOfF f ≤ g.cols →
    (∀ n ∈ kidNames f, ∀ i < r - v.rowStart, isStr sgn (g.cell (v.rowStart + i) (v.colStart + 1)) n = false) →
    ReadsBackF sgn g v f
  | .nil, _, _, _, _, _, _, _, _, _ => by simp [ReadsBackF]
  | .cons n t rest, r, hr, hstop, hf, hs, hpw, hrow, hcol, hb => by
    have hf' := hf
    have hs' := hs
    simp only [ForestOK] at hf'
    simp only [ShowsF] at hs'
    simp only [rowsOfF] at hstop hrow
    simp only [widthOfF] at hcol
    simp only [kidNames, List.pairwise_cons] at hpw
    simp only [ReadsBackF]
    refine ⟨⟨_, forest_step sgn g v h0 h1 hcc n t rest hf'.2.1 hf'.2.2 r hr (by omega) hs
      (hb n (by simp [kidNames])), ?_⟩, ?_⟩
    · exact shows_reads sgn g t r (v.colStart + 2) hf'.2.1 hs'.2.2.1 (by omega) (by omega)
    · refine forest_reads sgn g v h0 h1 hcc rest (r + rowsOf t) (by omega) (by omega) hf'.2.2 hs'.2.2.2 hpw.2
        (by omega) (by omega) ?_
      intro m hm i hi
      by_cases hi' : i < r - v.rowStart
      · exact hb m (by simp [kidNames, hm]) i hi'
      · -- rows of `t`
        have hnm := hpw.1 m hm
        by_cases hz : v.rowStart + i = r
        · rw [hz, hs'.1]; exact hnm
        · have := hs'.2.1 (v.rowStart + i - r) (by omega) (by omega)
          rw [show r + (v.rowStart + i - r) = v.rowStart + i by omega] at this
          rw [this]; rfl
end

/-- Round trip: a well-behaved tree written to a grid is read back with the same types, tags,
children and contents.  Missing for the full claim: empty values, matrices of one column in the last
column, blank cells inside vectors (see the `violated` theorems). -/
theorem C25_roundtrip_partial (sgn : Bool) (t : STree α) (h : TreeOK sgn t) :
    ∃ g, splat t = some g ∧ ReadsBack sgn g ⟨0, g.rows, 0⟩ t := by
  obtain ⟨g, hg, h1, h2⟩ := C25_splat_defined sgn t h
  refine ⟨g, hg, ?_⟩
  have hcell : g.cell = (writes t 0 0).foldl put fun _ _ => .blank := by
    rw [splat] at hg
    split_ifs at hg
    obtain rfl := Option.some.inj hg
    rfl
  have hs := writes_shows sgn t 0 0 (fun _ _ => .blank) h (fun _ _ _ _ _ => rfl)
  rw [← hcell] at hs
  have hw := width_le sgn t h
  have := shows_reads sgn g t 0 0 h hs (by omega) (by omega)
  rw [h1]
  simpa using this

/-- A 2x2 value and a nested object. -/
example : TreeOK true (.node [] "Model".toList
    (.cons "curve".toList (.node "$1".toList "Curve".toList (.cons "x".toList (.leaf 1 3 fun _ j => .val j) .nil))
      (.cons "vols".toList (.leaf 2 2 fun i j => .val (i + j)) .nil)) : STree Nat) := by
  simp only [TreeOK, ForestOK, kidNames, List.pairwise_cons, List.Pairwise.nil]
  refine ⟨by decide, by simp, by decide, by decide, ⟨?_, ?_⟩, by decide, ⟨by decide, by simp, by decide, by decide,
    ⟨by simp, trivial⟩, by decide, by omega, trivial⟩, by decide, by omega, trivial⟩
  · intro a ha
    simp only [List.mem_singleton] at ha
    subst ha; decide +kernel
  · simp

/-- An empty vector takes no row, so the next child is written over it and the child is lost. -/
theorem C25_empty_value_violated (sgn : Bool) :
    ∃ (t : STree Nat) (g : Grid Nat), t = .node [] ['T'] (.cons ['a'] (.leaf 1 0 fun _ _ => .blank)
        (.cons ['b'] (.leaf 1 1 fun _ _ => .val 7) .nil)) ∧ splat t = some g ∧
      hasChild sgn g ⟨0, g.rows, 0⟩ ['a'] = some false := by
  refine ⟨_, _, rfl, rfl, ?_⟩
  cases sgn <;> rfl

/-- An empty vector as last child is written outside the grid. -/
theorem C25_last_empty_value_violated :
    splat (.node [] ['T'] (.cons ['a'] (.leaf 1 0 fun _ _ => .blank) .nil) : STree Nat) = none := rfl

/-- A matrix with one column whose column is the last of the grid cannot be read: the scan for its end
starts outside the grid. -/
theorem C25_one_column_violated (sgn : Bool) :
    ∃ (t : STree Nat) (g : Grid Nat), t = .node [] ['T'] (.cons ['a'] (.leaf 2 1 fun i _ => .val i) .nil) ∧
      TreeOK sgn t ∧ splat t = some g ∧ ∃ v, child sgn g ⟨0, g.rows, 0⟩ ['a'] = some v ∧ asMatrix g v = none := by
  refine ⟨_, _, rfl, ?_, rfl, ?_⟩
  · simp [TreeOK, ForestOK, kidNames]
  · cases sgn <;> exact ⟨⟨0, 2, 2⟩, rfl, rfl⟩

/-- A vector is read only up to its first blank entry. -/
theorem C25_blank_entry_violated (sgn : Bool) :
    ∃ (t : STree Nat) (g : Grid Nat), t = .node [] ['T'] (.cons ['a']
        (.leaf 1 3 fun _ j => if j = 1 then .str [] else .str ['x']) .nil) ∧
      splat t = some g ∧ ∃ v, child sgn g ⟨0, g.rows, 0⟩ ['a'] = some v ∧ asVector g v = some [.str ['x']] := by
  refine ⟨_, _, rfl, rfl, ?_⟩
  cases sgn <;> exact ⟨⟨0, 1, 2⟩, rfl, rfl⟩

/-- An object without members cannot be written at all. -/
theorem C25_memberless_violated (type : Str) (h : type ≠ []) :
    splat (.node [] type .nil : STree Nat) = none := by
  have : type.isEmpty = false := by simpa using h
  simp [splat, rowsThrow, rowsThrowF, this]

example : ("Empty".toList : Str) ≠ [] := by decide

end Dal

import Verif.Sim.BarrierText
import Verif.Sim.BarrierSpec

/-! # Barrier options as scripts: runs of the processed trees -/

namespace Dal.Barrier
open Dal.Report Dal.Script

/-- The dates on which the barrier is tested, with repetitions. -/
def watched (twice : Bool) (ws : List ℝ) (last : ℝ) : List ℝ := ws ++ (if twice then [last, last] else [last])

theorem touched_watched (B : ℝ) (twice : Bool) (ws : List ℝ) (last : ℝ) : Touched B (watched twice ws last) ↔ Touched B (ws ++ [last]) := by
  cases twice <;> simp [Touched, watched]

/-! ### Exact evaluation -/

theorem exec_if (cv : Nat → ℝ) (B w z c : ℝ) (hB : cv 0 = B) (sp : Sample ℝ) (σ : Nat → ℝ) :
    exec realOps cv sp (barrierIf 0 0 B w z c [0]) σ = if B ≤ sp.spot then upd σ 0 c else σ := by
  show (if decide ((0 : ℝ) ≤ sp.spot - cv 0) = true then upd σ 0 c else if false = true then σ else σ) = _
  rw [hB]
  by_cases h : B ≤ sp.spot <;> simp [h]

theorem exec_watch (cv : Nat → ℝ) (B w z c : ℝ) (hB : cv 0 = B) (sp : Sample ℝ) (σ : Nat → ℝ) :
    execs realOps cv sp (watchTree 0 0 B w z c [0]) σ = if B ≤ sp.spot then upd σ 0 c else σ :=
  exec_if cv B w z c hB sp σ

theorem max_flip (x : ℝ) : (if decide (x < 0) = true then 0 else x) = max 0 x := by
  simp only [decide_eq_true_eq]
  split_ifs with h
  · exact (max_eq_left h.le).symm
  · exact (max_eq_right (not_lt.1 h)).symm

theorem exec_pay (cv : Nat → ℝ) (B K w z c : ℝ) (hB : cv 0 = B) (hK : cv 1 = K) (sp : Sample ℝ) (σ : Nat → ℝ) :
    execs realOps cv sp (payTree 0 1 0 1 B K w z c [0]) σ 1 = σ 1 + (if B ≤ sp.spot then c else σ 0) * max 0 (sp.spot - K) / sp.numeraire := by
  show execs realOps cv sp (.cons (.pays ⟨1, false⟩ (.bin .mul (.var 0 none) (.bin .max (.bin .sub .spot (.constVar 1 K) none) (.const 0) none) none)) .nil)
    (exec realOps cv sp (barrierIf 0 0 B w z c [0]) σ) 1 = _
  rw [exec_if cv B w z c hB]
  generalize hτ : (if B ≤ sp.spot then upd σ 0 c else σ) = τ
  show τ 1 + τ 0 * (if decide (sp.spot - cv 1 < 0) = true then 0 else sp.spot - cv 1) / sp.numeraire = _
  rw [max_flip, hK, ← hτ]
  by_cases h : B ≤ sp.spot <;> simp [h, upd]

open Classical in
theorem exec_watches (cv : Nat → ℝ) (B w z c : ℝ) (hB : cv 0 = B) : ∀ (ws : List (Sample ℝ)) (σ : Nat → ℝ),
    evaluate realOps cv ((List.replicate ws.length (watchTree 0 0 B w z c [0])).zip ws) σ = if Touched B (ws.map Sample.spot) then upd σ 0 c else σ := by
  intro ws
  induction ws with
  | nil => intro σ; simp [evaluate, Touched]
  | cons s ws ih =>
    intro σ
    show evaluate realOps cv ((List.replicate ws.length (watchTree 0 0 B w z c [0])).zip ws) (execs realOps cv s (watchTree 0 0 B w z c [0]) σ) = _
    rw [ih, exec_watch cv B w z c hB]
    by_cases h1 : B ≤ s.spot
    · have h2 : Touched B ((s :: ws).map Sample.spot) := ⟨s.spot, by simp, h1⟩
      rw [if_pos h1, if_pos h2]
      split_ifs with h3
      · funext j
        by_cases hj : j = 0 <;> simp [upd, hj]
      · rfl
    · have h2 : Touched B ((s :: ws).map Sample.spot) ↔ Touched B (ws.map Sample.spot) := by
        simp [Touched, h1]
      rw [if_neg h1]
      by_cases h3 : Touched B (ws.map Sample.spot)
      · rw [if_pos h3, if_pos (h2.2 h3)]
      · rw [if_neg h3, if_neg (fun h => h3 (h2.1 h))]

theorem exec_last (cv : Nat → ℝ) (twice : Bool) (B K w z c : ℝ) (hB : cv 0 = B) (hK : cv 1 = K) (sp : Sample ℝ) (σ : Nat → ℝ) :
    execs realOps cv sp (lastTree twice 0 1 0 1 B K w z c [0]) σ 1 = σ 1 + (if B ≤ sp.spot then c else σ 0) * max 0 (sp.spot - K) / sp.numeraire := by
  cases twice with
  | false => exact exec_pay cv B K w z c hB hK sp σ
  | true =>
    show execs realOps cv sp (payTree 0 1 0 1 B K w z c [0]) (exec realOps cv sp (barrierIf 0 0 B w z c [0]) σ) 1 = _
    rw [exec_pay cv B K w z c hB hK, exec_if cv B w z c hB]
    by_cases h : B ≤ sp.spot <;> simp [h, upd]

theorem exec_code (kin twice : Bool) (cv : Nat → ℝ) (B K w z : ℝ) (hB : cv 0 = B) (hK : cv 1 = K) (s0 : Sample ℝ) (ws : List (Sample ℝ)) (sT : Sample ℝ) :
    evaluate realOps cv ((barrierCode kin twice ws.length B K w z [0]).zip (s0 :: (ws ++ [sT]))) (fun _ => 0) 1 =
      worth kin B K (ws.map Sample.spot ++ [sT.spot]) sT.spot sT.numeraire := by
  classical
  have hzip : ((List.replicate ws.length (watchTree 0 0 B w z (flagAfter kin) [0]) ++ [lastTree twice 0 1 0 1 B K w z (flagAfter kin) [0]]).zip (ws ++ [sT])) =
      (List.replicate ws.length (watchTree 0 0 B w z (flagAfter kin) [0])).zip ws ++ [(lastTree twice 0 1 0 1 B K w z (flagAfter kin) [0], sT)] := by
    rw [List.zip_append (by simp)]
    rfl
  rw [barrierCode, List.zip_cons_cons, hzip]
  show evaluate realOps cv ((List.replicate ws.length (watchTree 0 0 B w z (flagAfter kin) [0])).zip ws ++ [(lastTree twice 0 1 0 1 B K w z (flagAfter kin) [0], sT)])
    (upd (fun _ => 0) 0 (flagBefore kin)) 1 = _
  rw [evaluate, List.foldl_append]
  have h1 := exec_watches cv B w z (flagAfter kin) hB ws (upd (fun _ => 0) 0 (flagBefore kin))
  rw [evaluate] at h1
  rw [h1]
  show execs realOps cv sT (lastTree twice 0 1 0 1 B K w z (flagAfter kin) [0]) _ 1 = _
  rw [exec_last cv twice B K w z _ hB hK]
  have h2 : Touched B (ws.map Sample.spot ++ [sT.spot]) ↔ Touched B (ws.map Sample.spot) ∨ B ≤ sT.spot := by
    simp only [Touched, List.mem_append, List.mem_singleton]
    constructor
    · rintro ⟨s, hs | rfl, h⟩
      · exact Or.inl ⟨s, hs, h⟩
      · exact Or.inr h
    · rintro (⟨s, hs, h⟩ | h)
      · exact ⟨s, Or.inl hs, h⟩
      · exact ⟨_, Or.inr rfl, h⟩
  rw [worth, h2]
  by_cases h3 : Touched B (ws.map Sample.spot) <;> by_cases h4 : B ≤ sT.spot <;> cases kin <;> simp [h3, h4, upd, flagBefore, flagAfter]

/-! ### Smoothed evaluation -/

theorem degree_cspr (w x : ℝ) (hw : 0 < w) : cspr x w = some (degree w x) := by
  rw [cspr, degree, fdiv, if_neg hw.ne']
  split_ifs <;> rfl

theorem fuzzy_if (cv : Nat → ℝ) (d eps B w z c : ℝ) (hB : cv 0 = B) (hw : 0 < w) (sp : Sample ℝ) (lvl : Nat) (s : FSt ℝ) :
    ∃ s', fuzzyS realOps cv sp d eps (barrierIf 0 0 B w z c [0]) lvl s = some s' ∧
      s'.σ = upd s.σ 0 (left eps w (sp.spot - B) * s.σ 0 + (1 - left eps w (sp.spot - B)) * c) := by
  have hc : fuzzyC realOps cv sp d s.σ (.cmp .supEq (.bin .sub .spot (.constVar 0 B) none) ⟨w, false, z, z⟩ {}) = some (degree w (sp.spot - B)) := by
    show cspr (sp.spot - cv 0) (if w < 0 then d else w) = _
    rw [if_neg (not_lt.2 hw.le), degree_cspr _ _ hw, hB]
  rw [barrierIf, fuzzyS, hc]
  dsimp only
  rw [left]
  by_cases h1 : 1 - eps < degree w (sp.spot - B)
  · rw [if_pos h1, if_pos h1]
    refine ⟨_, rfl, ?_⟩
    show upd s.σ 0 c = _
    simp
  · rw [if_neg h1, if_neg h1]
    by_cases h2 : degree w (sp.spot - B) < eps
    · rw [if_pos h2, if_pos h2, if_neg (by simp)]
      refine ⟨_, rfl, ?_⟩
      funext j
      by_cases hj : j = 0 <;> simp [upd, hj]
    · rw [if_neg h2, if_neg h2]
      refine ⟨_, rfl, ?_⟩
      funext j
      by_cases hj : j = 0
      · simp [setVars, setRow, upd, hj, evalE]; ring
      · simp [setVars, setRow, upd, hj, evalE]

theorem fuzzy_watch (cv : Nat → ℝ) (d eps B w z c : ℝ) (hB : cv 0 = B) (hw : 0 < w) (sp : Sample ℝ) (s : FSt ℝ) :
    ∃ s', fuzzySs realOps cv sp d eps (watchTree 0 0 B w z c [0]) 0 s = some s' ∧
      s'.σ = upd s.σ 0 (left eps w (sp.spot - B) * s.σ 0 + (1 - left eps w (sp.spot - B)) * c) := by
  obtain ⟨s', h1, h2⟩ := fuzzy_if cv d eps B w z c hB hw sp 0 s
  refine ⟨s', ?_, h2⟩
  rw [watchTree, fuzzySs, h1]
  rfl

theorem fuzzy_pay (cv : Nat → ℝ) (d eps B K w z c : ℝ) (hB : cv 0 = B) (hK : cv 1 = K) (hw : 0 < w) (sp : Sample ℝ) (s : FSt ℝ) :
    ∃ s', fuzzySs realOps cv sp d eps (payTree 0 1 0 1 B K w z c [0]) 0 s = some s' ∧
      s'.σ 1 = s.σ 1 + (left eps w (sp.spot - B) * s.σ 0 + (1 - left eps w (sp.spot - B)) * c) * max 0 (sp.spot - K) / sp.numeraire := by
  obtain ⟨s', h1, h2⟩ := fuzzy_if cv d eps B w z c hB hw sp 0 s
  rw [payTree, fuzzySs, h1]
  refine ⟨_, rfl, ?_⟩
  · show s'.σ 1 + s'.σ 0 * (if decide (sp.spot - cv 1 < 0) = true then 0 else sp.spot - cv 1) / sp.numeraire = _
    rw [max_flip, hK, h2]
    rfl

theorem fuzzy_last (cv : Nat → ℝ) (twice : Bool) (d eps B K w z c : ℝ) (hB : cv 0 = B) (hK : cv 1 = K) (hw : 0 < w) (sp : Sample ℝ) (s : FSt ℝ) :
    ∃ s', fuzzySs realOps cv sp d eps (lastTree twice 0 1 0 1 B K w z c [0]) 0 s = some s' ∧
      s'.σ 1 = s.σ 1 + (alive eps w B (watched twice [] sp.spot) * s.σ 0 + (1 - alive eps w B (watched twice [] sp.spot)) * c) * max 0 (sp.spot - K) / sp.numeraire := by
  cases twice with
  | false =>
    obtain ⟨s', h1, h2⟩ := fuzzy_pay cv d eps B K w z c hB hK hw sp s
    refine ⟨s', h1, ?_⟩
    rw [h2]
    simp [alive, watched]
  | true =>
    obtain ⟨s1, h1, h2⟩ := fuzzy_if cv d eps B w z c hB hw sp 0 s
    obtain ⟨s', h3, h4⟩ := fuzzy_pay cv d eps B K w z c hB hK hw sp s1
    refine ⟨s', ?_, ?_⟩
    · show fuzzySs realOps cv sp d eps (.cons (barrierIf 0 0 B w z c [0]) (payTree 0 1 0 1 B K w z c [0])) 0 s = _
      rw [fuzzySs, h1]
      exact h3
    · rw [h4, h2]
      simp [alive, watched, upd]
      ring

theorem fuzzy_watches (cv : Nat → ℝ) (d eps B w z c : ℝ) (hB : cv 0 = B) (hw : 0 < w) (rest : List (Stmts Nat ℝ × Sample ℝ)) : ∀ (ws : List (Sample ℝ)) (s : FSt ℝ),
    ∃ s', fuzzyEvents cv d eps ((List.replicate ws.length (watchTree 0 0 B w z c [0])).zip ws ++ rest) s = fuzzyEvents cv d eps rest s' ∧
      s'.σ = upd s.σ 0 (alive eps w B (ws.map Sample.spot) * s.σ 0 + (1 - alive eps w B (ws.map Sample.spot)) * c) := by
  intro ws
  induction ws with
  | nil =>
    intro s
    refine ⟨s, rfl, ?_⟩
    funext j
    by_cases hj : j = 0 <;> simp [upd, hj, alive]
  | cons sp ws ih =>
    intro s
    obtain ⟨s1, h1, h2⟩ := fuzzy_watch cv d eps B w z c hB hw sp s
    obtain ⟨s', h3, h4⟩ := ih s1
    refine ⟨s', ?_, ?_⟩
    · show (fuzzySs realOps cv sp d eps (watchTree 0 0 B w z c [0]) 0 s).bind _ = _
      rw [h1, Option.bind_some]
      exact h3
    · rw [h4, h2]
      funext j
      by_cases hj : j = 0
      · simp [upd, hj, alive]; ring
      · simp [upd, hj]

theorem fuzzy_code (kin twice : Bool) (cv : Nat → ℝ) (d eps B K w z : ℝ) (hB : cv 0 = B) (hK : cv 1 = K) (hw : 0 < w) (s0 : Sample ℝ) (ws : List (Sample ℝ)) (sT : Sample ℝ)
    (s : FSt ℝ) (hs : s.σ = fun _ => 0) :
    ∃ s', fuzzyEvents cv d eps ((barrierCode kin twice ws.length B K w z [0]).zip (s0 :: (ws ++ [sT]))) s = some s' ∧
      s'.σ 1 = smoothWorth kin eps w B K (watched twice (ws.map Sample.spot) sT.spot) sT.spot sT.numeraire := by
  have hzip : ((List.replicate ws.length (watchTree 0 0 B w z (flagAfter kin) [0]) ++ [lastTree twice 0 1 0 1 B K w z (flagAfter kin) [0]]).zip (ws ++ [sT])) =
      (List.replicate ws.length (watchTree 0 0 B w z (flagAfter kin) [0])).zip ws ++ [(lastTree twice 0 1 0 1 B K w z (flagAfter kin) [0], sT)] := by
    rw [List.zip_append (by simp)]
    rfl
  rw [barrierCode, List.zip_cons_cons, hzip]
  obtain ⟨s1, h1, h2⟩ := fuzzy_watches cv d eps B w z (flagAfter kin) hB hw [(lastTree twice 0 1 0 1 B K w z (flagAfter kin) [0], sT)] ws
    { s with σ := upd s.σ 0 (flagBefore kin) }
  obtain ⟨s', h3, h4⟩ := fuzzy_last cv twice d eps B K w z (flagAfter kin) hB hK hw sT s1
  refine ⟨s', ?_, ?_⟩
  · show fuzzyEvents cv d eps ((List.replicate ws.length (watchTree 0 0 B w z (flagAfter kin) [0])).zip ws ++ [(lastTree twice 0 1 0 1 B K w z (flagAfter kin) [0], sT)])
      { s with σ := upd s.σ 0 (flagBefore kin) } = _
    rw [h1, fuzzyEvents, h3, Option.bind_some, fuzzyEvents]
  · have ha : alive eps w B (watched twice (ws.map Sample.spot) sT.spot) = alive eps w B (ws.map Sample.spot) * alive eps w B (watched twice [] sT.spot) := by
      simp [alive, watched]
    rw [h4, h2, hs, smoothWorth, ha]
    cases kin
    · simp [upd, flagBefore, flagAfter]; ring
    · simp [upd, flagBefore, flagAfter]; ring

end Dal.Barrier

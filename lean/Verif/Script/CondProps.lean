import Verif.Script.CondLemmas

/-! # C33 and C34: removal of constant conditions, smoothed evaluation -/

namespace Dal
open Dal.Script

section C33
variable {D : Type}

/-- C33: when the marks met during the execution agree with the values of the conditions, the processed
event leaves every variable with the value the original event gives. -/
theorem C33_removal_preserves (o : Ops D) (cv : Nat → D) (sp : Sample D) (ev : Stmts Nat D) (σ : Nat → D)
    (h : RightSs o cv sp ev σ) : execs o cv sp (ccSs ev) σ = execs o cv sp ev σ :=
  ccSs_exec o cv sp ev σ h

/-- C33, whole products: the events are executed one after the other. -/
theorem C33_product (o : Ops D) (cv : Nat → D) : (evs : List (Stmts Nat D × Sample D)) → (σ : Nat → D) →
    (∀ pre ev post, evs = pre ++ ev :: post → RightSs o cv ev.2 ev.1 (evaluate o cv pre σ)) →
    evaluate o cv (evs.map fun ev => (ccSs ev.1, ev.2)) σ = evaluate o cv evs σ
  | [], σ, _ => rfl
  | ev :: evs, σ, h => by
    simp only [evaluate, List.map_cons, List.foldl_cons]
    rw [C33_removal_preserves o cv ev.2 ev.1 σ (h [] ev evs rfl)]
    exact C33_product o cv evs _ (fun pre e post he => h (ev :: pre) e post (by rw [he]; rfl))

/-- C33: after the processing no marked condition and no marked `IF` is left. -/
theorem C33_removal_complete (ev : Stmts Nat D) : CleanSs (ccSs ev) := ccSs_clean ev

/-- C33: a statement without marks is left as it is. -/
theorem C33_unmarked_condition (c : Cond Nat D) (h : CleanC c) : ccC c = c := by
  induction c with
  | cmp op e a f => simp only [ccC, h.1, h.2]; rfl
  | and l r f il ir => simp only [ccC, h.1, h.2.1, il h.2.2.1, ir h.2.2.2]; rfl
  | or l r f il ir => simp only [ccC, h.1, h.2.1, il h.2.2.1, ir h.2.2.2]; rfl
  | not c f ic => simp only [ccC, h.1, h.2.1, ic h.2.2]; rfl
  | tt => rfl
  | ff => rfl

/-- `IF spot > 0 [always] THEN IF x > 1 [never] THEN x = 1 ELSE x = 2`, on a positive spot. -/
def exRemoval : Stmts Nat Rat :=
  .cons (.ite (.cmp .sup .spot ⟨-1, false, 0, 0⟩ ⟨true, false⟩)
    (.cons (.ite (.cmp .sup (.bin .sub (.var 0 none) (.const 1) none) ⟨-1, false, 0, 0⟩ ⟨false, true⟩)
      (.cons (.assign ⟨0, false⟩ (.const 1)) .nil) true (.cons (.assign ⟨0, false⟩ (.const 2)) .nil) [0] ⟨false, true⟩) .nil)
    false .nil [0] ⟨true, false⟩) .nil

example : RightSs ratOps (fun _ => 0) ⟨100, 1⟩ exRemoval (fun _ => 0) := by
  simp [exRemoval, RightSs, RightS, RightC, Flags.Right, evalC, evalCmp, evalE, evalBin, ratOps]

example : execs ratOps (fun _ => 0) ⟨100, 1⟩ (ccSs exRemoval) (fun _ => 0) 0 = 2 := by
  simp [exRemoval, ccSs, ccS, execs, exec, evalE, upd]

end C33

section C34
variable {K : Type} [Field K] [LinearOrder K] [IsStrictOrderedRing K]

/-- C34: a degree of truth is within [0,1], whatever the widths and the values. -/
theorem C34_degree_range (o : Ops K) (cv : Nat → K) (sp : Sample K) (defEps : K) (σ : Nat → K) (c : Cond Nat K) (d : K)
    (h : fuzzyC o cv sp defEps σ c = some d) : 0 ≤ d ∧ d ≤ 1 :=
  fuzzyC_range o cv sp defEps σ c d h

/-- A condition without negation, whose widths are not zero and whose discrete bounds enclose zero strictly. -/
def NiceC : Cond Nat K → Prop
  | .cmp _ _ a _ => a.eps ≠ 0 ∧ a.lb < 0 ∧ 0 < a.rb
  | .and l r _ => NiceC l ∧ NiceC r
  | .or l r _ => NiceC l ∧ NiceC r
  | .not _ _ => False
  | .tt => True
  | .ff => True

/-- C34: such conditions have a degree in every state (no division by zero).  Partial: negations excluded. -/
theorem C34_degree_defined_partial (o : Ops K) (cv : Nat → K) (sp : Sample K) (defEps : K) (hd : 0 < defEps) (σ : Nat → K) :
    (c : Cond Nat K) → NiceC c → ∃ d, fuzzyC o cv sp defEps σ c = some d
  | .cmp op e a f, hw => by
    obtain ⟨h1, h2, h3⟩ := hw
    have hpos : 0 < (if a.eps < 0 then defEps else a.eps) := by
      split
      · exact hd
      · next hh => exact lt_of_le_of_ne (not_lt.1 hh) (Ne.symm h1)
    simp only [fuzzyC]
    generalize (if a.eps < 0 then defEps else a.eps) = w at *
    generalize evalE o cv sp σ e = x
    have hw2 : w / 2 ≠ 0 := by intro hc; linarith
    have hs : a.rb - a.lb ≠ 0 := by intro hc; linarith
    rw [← Option.isSome_iff_exists]
    cases op <;> simp only <;> split
    · unfold bfly2 fdiv; rw [if_neg h2.ne, if_neg h3.ne']; split <;> [rfl; split <;> rfl]
    · unfold bfly fdiv; rw [if_neg hw2]; split <;> rfl
    · unfold cspr2 fdiv; rw [if_neg hs]; split <;> [rfl; split <;> rfl]
    · unfold cspr fdiv; rw [if_neg hpos.ne']; split <;> [rfl; split <;> rfl]
    · unfold cspr2 fdiv; rw [if_neg hs]; split <;> [rfl; split <;> rfl]
    · unfold cspr fdiv; rw [if_neg hpos.ne']; split <;> [rfl; split <;> rfl]
  | .and l r f, h => by
    obtain ⟨x, hx⟩ := C34_degree_defined_partial o cv sp defEps hd σ l h.1
    obtain ⟨y, hy⟩ := C34_degree_defined_partial o cv sp defEps hd σ r h.2
    exact ⟨y * x, by simp only [fuzzyC, hx, hy]⟩
  | .or l r f, h => by
    obtain ⟨x, hx⟩ := C34_degree_defined_partial o cv sp defEps hd σ l h.1
    obtain ⟨y, hy⟩ := C34_degree_defined_partial o cv sp defEps hd σ r h.2
    exact ⟨y + x - y * x, by simp only [fuzzyC, hx, hy]⟩
  | .not c f, h => h.elim
  | .tt, _ => ⟨1, rfl⟩
  | .ff, _ => ⟨0, rfl⟩

example : NiceC (.and (.cmp .sup (.bin .sub .spot (.const 90) none) ⟨-1, false, -1, 1⟩ {}) .tt {} : Cond Nat Rat) := by
  simp [NiceC]

/-- C34: the degree of a conjunction is the product, of a disjunction the probabilistic sum; in particular a
conjunction is never truer than its parts and a disjunction never falser. -/
theorem C34_connectives (o : Ops K) (cv : Nat → K) (sp : Sample K) (defEps : K) (σ : Nat → K) (l r : Cond Nat K) (f : Flags) (x y : K)
    (hx : fuzzyC o cv sp defEps σ l = some x) (hy : fuzzyC o cv sp defEps σ r = some y) :
    ∃ a b, fuzzyC o cv sp defEps σ (.and l r f) = some a ∧ fuzzyC o cv sp defEps σ (.or l r f) = some b ∧
      a = x * y ∧ b = x + y - x * y ∧ a ≤ x ∧ a ≤ y ∧ x ≤ b ∧ y ≤ b := by
  obtain ⟨x0, x1⟩ := fuzzyC_range o cv sp defEps σ l x hx
  obtain ⟨y0, y1⟩ := fuzzyC_range o cv sp defEps σ r y hy
  refine ⟨y * x, y + x - y * x, by simp only [fuzzyC, hx, hy], by simp only [fuzzyC, hx, hy], by ring, by ring, ?_, ?_, ?_, ?_⟩
  · nlinarith [mul_nonneg x0 (by linarith : (0 : K) ≤ 1 - y)]
  · nlinarith [mul_nonneg y0 (by linarith : (0 : K) ≤ 1 - x)]
  · nlinarith [mul_nonneg y0 (by linarith : (0 : K) ≤ 1 - x)]
  · nlinarith [mul_nonneg x0 (by linarith : (0 : K) ≤ 1 - y)]

/-- C34: outside the bands the smoothed execution of an event is the sharp execution (and leaves the stores
alone).  Partial: conditions with a negation are excluded, see `C34_negation_violated`. -/
theorem C34_sharp_outside_bands_partial {o : Ops K} (ho : OrdOps o) (cv : Nat → K) (sp : Sample K) (defEps eps : K)
    (he : 0 < eps) (he1 : eps ≤ 1) (ev : Stmts Nat K) (s : FSt K) (h : SharpSs o cv sp defEps ev s.σ) :
    fuzzySs o cv sp defEps eps ev 0 s = some { s with σ := execs o cv sp ev s.σ } :=
  sharpSs ho cv sp defEps eps he he1 ev 0 s h

/-- C34: inside the bands, whatever the nesting, an `IF` gives every variable the average of its values
after the two branches weighted by the degree: the stores of the evaluator and the recorded variables
are only a means to that end. -/
theorem C34_blend (o : Ops K) (cv : Nat → K) (sp : Sample K) (defEps eps : K) (ev : Stmts Nat K) (s : FSt K) (h : RecSs ev) :
    (fuzzySs o cv sp defEps eps ev 0 s).map FSt.σ = blendSs o cv sp defEps eps ev s.σ :=
  fuzzySs_blend o cv sp defEps eps ev 0 s h

end C34

/-- C34, negations: the evaluation of `NOT c` (hence of any `!=`) is undefined, although `c` itself has a degree
and the sharp value of `NOT c` is known. -/
theorem C34_negation_violated :
    ∃ (c : Cond Nat Rat) (f : Flags) (σ : Nat → Rat),
      fuzzyC ratOps (fun _ => 0) ⟨100, 1⟩ 1 σ c = some 0 ∧ evalC ratOps (fun _ => 0) ⟨100, 1⟩ σ (.not c f) = true ∧
      fuzzyC ratOps (fun _ => 0) ⟨100, 1⟩ 1 σ (.not c f) = none := by
  refine ⟨.cmp .equal (.bin .sub .spot (.const 90) none) ⟨-1, false, 0, 0⟩ {}, {}, fun _ => 0, ?_, ?_, ?_⟩
  · simp only [fuzzyC, evalE, evalBin, ratOps, bfly]; norm_num
  · simp only [evalC, evalCmp, evalE, evalBin, ratOps]; norm_num
  · rfl

/-- C34, width zero (written `;0` after a condition): at a tie the degree is 0/0. -/
theorem C34_zero_width_violated :
    fuzzyC ratOps (fun _ => 0) ⟨90, 1⟩ 1 (fun _ => 0)
      (.cmp .sup (.bin .sub .spot (.const 90) none) ⟨0, false, 0, 0⟩ {}) = none := by
  simp [fuzzyC, evalE, evalBin, ratOps, cspr, fdiv]

/-- `IF spot > 90 THEN x = 1 ELSE x = 3` with width 2 and spot 90.5: the degree is 3/4. -/
def exFuzzy : Stmts Nat Rat :=
  .cons (.ite (.cmp .sup (.bin .sub .spot (.const 90) none) ⟨-1, false, 0, 0⟩ {})
    (.cons (.assign ⟨0, false⟩ (.const 1)) .nil) true (.cons (.assign ⟨0, false⟩ (.const 3)) .nil) [0] {}) .nil

example : RecSs exFuzzy := by simp [exFuzzy, RecSs, RecS, targetss, targets]

example : (blendSs ratOps (fun _ => 0) ⟨181/2, 1⟩ 2 (1/100) exFuzzy (fun _ => 0)).map (fun σ => σ 0) = some (3/2) := by
  simp only [exFuzzy, blendSs, blendS, fuzzyC, cspr, fdiv, evalE, evalBin, ratOps, exec, upd]
  norm_num [evalE, upd]

example : OrdOps ratOps := ⟨rfl, fun _ _ => rfl, fun _ _ => rfl, fun _ _ => rfl⟩

example : SharpSs ratOps (fun _ => 0) ⟨100, 1⟩ 2 exFuzzy (fun _ => 0) := by
  simp [exFuzzy, SharpSs, SharpS, SharpC, OutsideBand, evalE, evalBin, ratOps]
  norm_num

end Dal

import Verif.Sim.ReportProps

/-! # Barrier options as scripts: from the texts to the processed trees

The texts are those of `examples/uoc/uoc.cpp` lines 49–58, and their mirror image for an option that is knocked in. -/

namespace Dal
open Dal.Report Dal.Models

/-- The name of the variable that says whether the option is alive, or has been knocked in. -/
def flagName (kin : Bool) : List Char := if kin then ['h', 'i', 't'] else ['a', 'l', 'i', 'v', 'e']

/-- The name of the payoff. -/
def callName : List Char := ['c', 'a', 'l', 'l']
/-- The constants. -/
def barrierName : List Char := ['B', 'A', 'R', 'R', 'I', 'E', 'R']
/-- The constants. -/
def strikeName : List Char := ['S', 'T', 'R', 'I', 'K', 'E']

/-- The event at the start. -/
def firstText (kin : Bool) : List Char := if kin then "hit = 0".toList else "alive = 1".toList

/-- The event at each date on which the barrier is watched. -/
def watchText (kin : Bool) : List Char :=
  if kin then "if spot() >= BARRIER:0.1 then hit = 1 end".toList else "if spot() >= BARRIER:0.1 then alive = 0 end".toList

/-- The event at maturity, as it is written. -/
def payText (kin : Bool) : List Char :=
  if kin then "if spot() >= BARRIER:0.1 then hit = 1 end\n call pays hit * MAX(spot() - STRIKE, 0.0)".toList
  else "if spot() >= BARRIER:0.1 then alive = 0 end\n call pays alive * MAX(spot() - STRIKE, 0.0)".toList

/-- The event at maturity.  If maturity is also a date of the schedule (the default, `FIXING: END`), `event.cpp` lines 46–47 and 67–68 join the two texts with a new line, so that the
barrier is tested twice. -/
def lastText (kin twice : Bool) : List Char := if twice then watchText kin ++ '\n' :: payText kin else payText kin

/-- The test of the barrier; `z` are the bounds before any analysis, `af` the variables the `IF` processor finds. -/
def barrierIf {ν : Type} (x k : ν) (B w z c : ℝ) (af : List Nat) : Script.Stmt ν ℝ :=
  .ite (.cmp .supEq (.bin .sub .spot (.constVar k B) none) ⟨w, false, z, z⟩ {}) (.cons (.assign ⟨x, false⟩ (.const c)) .nil) false .nil af {}

/-- The trees of the three events. -/
def startTree {ν : Type} (x : ν) (a : ℝ) : Script.Stmts ν ℝ := .cons (.assign ⟨x, false⟩ (.const a)) .nil
/-- The trees of the three events. -/
def watchTree {ν : Type} (x k : ν) (B w z c : ℝ) (af : List Nat) : Script.Stmts ν ℝ := .cons (barrierIf x k B w z c af) .nil
/-- The trees of the three events. -/
def payTree {ν : Type} (x y k l : ν) (B K w z c : ℝ) (af : List Nat) : Script.Stmts ν ℝ :=
  .cons (barrierIf x k B w z c af)
    (.cons (.pays ⟨y, false⟩ (.bin .mul (.var x none) (.bin .max (.bin .sub .spot (.constVar l K) none) (.const 0) none) none)) .nil)

/-- The trees of the three events. -/
def lastTree {ν : Type} (twice : Bool) (x y k l : ν) (B K w z c : ℝ) (af : List Nat) : Script.Stmts ν ℝ :=
  if twice then .cons (barrierIf x k B w z c af) (payTree x y k l B K w z c af) else payTree x y k l B K w z c af

/-- The value of the flag before the barrier is touched. -/
noncomputable def flagBefore (kin : Bool) : ℝ := if kin then 0 else 1
/-- The value of the flag afterwards. -/
noncomputable def flagAfter (kin : Bool) : ℝ := if kin then 1 else 0

/-- How the texts are read: nothing but `BARRIER` and `STRIKE` is a constant, and the literals are what they look like. -/
structure BarrierEnv (v : Script.PEnv ℝ) (B K w : ℝ) : Prop where
  alive : v.cvs ['a', 'l', 'i', 'v', 'e'] = none
  hit : v.cvs ['h', 'i', 't'] = none
  call : v.cvs callName = none
  barrier : v.cvs barrierName = some B
  strike : v.cvs strikeName = some K
  zero : v.toD (.num ['0']) = some 0
  one : v.toD (.num ['1']) = some 1
  zeroPoint : v.toD (.num ['0', '.', '0']) = some 0
  width : v.toD (.num ['0', '.', '1']) = some w

section parse
variable {v : Script.PEnv ℝ} {B K w : ℝ} (h : BarrierEnv v B K w)
include h

private theorem assign_flag {s : List Char} {t : List Char} {c : ℝ} (hs : v.cvs s = none) (ht : v.toD (.num t) = some c) :
    Script.GStmt v [.name s, .cmp .eq, .num t] (.assign ⟨s, false⟩ (.const c)) := by
  have h4 := Script.GStmt.assign (s := s) (Script.G1.up (.up (.up (Script.G4.num ht))))
  rw [hs] at h4
  exact h4

private theorem if_flag {s : List Char} {t : List Char} {c : ℝ} (hs : v.cvs s = none) (ht : v.toD (.num t) = some c) :
    Script.GStmt v [.kw .if_, .kw .spot, .lp, .rp, .cmp .ge, .name barrierName, .colon, .num ['0', '.', '1'], .kw .then_, .name s, .cmp .eq, .num t, .kw .end_]
      (barrierIf s barrierName B w v.zero c []) := by
  have hc := Script.GElem.cmp (c := .ge) (Script.G1.up (.up (.up (Script.G4.spot (v := v))))) (Script.G1.up (.up (.up (Script.G4.cvar h.barrier))))
    (Script.GWidth.colon h.width) (by simp)
  have hb := Script.GStmts.cons (assign_flag h hs ht) Script.GStmts.nil
  have hi := Script.GStmt.ifThen (.up (.up hc)) hb
  simpa [barrierIf, Script.cmpMeaning] using hi

theorem start_parsed (kin : Bool) : ∃ N, ∀ n, N ≤ n → Script.pEvent v n (Script.tokens (firstText kin)) = .ok (startTree (flagName kin) (flagBefore kin)) := by
  apply C27_event
  cases kin with
  | false =>
    have ht : Script.tokens (firstText false) = [.name ['a', 'l', 'i', 'v', 'e'], .cmp .eq, .num ['1']] := by decide +kernel
    rw [ht]
    have := Script.GStmts.cons (assign_flag h h.alive h.one) Script.GStmts.nil
    simpa [startTree, flagName, flagBefore] using this
  | true =>
    have ht : Script.tokens (firstText true) = [.name ['h', 'i', 't'], .cmp .eq, .num ['0']] := by decide +kernel
    rw [ht]
    have := Script.GStmts.cons (assign_flag h h.hit h.zero) Script.GStmts.nil
    simpa [startTree, flagName, flagBefore] using this

theorem watch_parsed (kin : Bool) : ∃ N, ∀ n, N ≤ n → Script.pEvent v n (Script.tokens (watchText kin)) =
    .ok (watchTree (flagName kin) barrierName B w v.zero (flagAfter kin) []) := by
  apply C27_event
  cases kin with
  | false =>
    have ht : Script.tokens (watchText false) = [.kw .if_, .kw .spot, .lp, .rp, .cmp .ge, .name barrierName, .colon, .num ['0', '.', '1'], .kw .then_, .name ['a', 'l', 'i', 'v', 'e'],
      .cmp .eq, .num ['0'], .kw .end_] := by decide +kernel
    rw [ht]
    have := Script.GStmts.cons (if_flag h h.alive h.zero) Script.GStmts.nil
    simpa [watchTree, flagName, flagAfter] using this
  | true =>
    have ht : Script.tokens (watchText true) = [.kw .if_, .kw .spot, .lp, .rp, .cmp .ge, .name barrierName, .colon, .num ['0', '.', '1'], .kw .then_, .name ['h', 'i', 't'],
      .cmp .eq, .num ['1'], .kw .end_] := by decide +kernel
    rw [ht]
    have := Script.GStmts.cons (if_flag h h.hit h.one) Script.GStmts.nil
    simpa [watchTree, flagName, flagAfter] using this

private theorem pays_flag {s : List Char} (hs : v.cvs s = none) :
    Script.GStmt v [.name callName, .kw .pays, .name s, .times, .kw .max_, .lp, .kw .spot, .lp, .rp, .minus, .name strikeName, .comma, .num ['0', '.', '0'], .rp]
      (.pays ⟨callName, false⟩ (.bin .mul (.var s none) (.bin .max (.bin .sub .spot (.constVar strikeName K) none) (.const 0) none) none)) := by
  have hz : Script.GArgs v [.num ['0', '.', '0']] [.const 0] := .one (.up (.up (.up (.num h.zeroPoint))))
  have hd := Script.G1.sub (.up (.up (.up (Script.G4.spot (v := v))))) (.up (.up (Script.G4.cvar h.strike)))
  have hm := Script.G4.max (l := []) (Script.GArgs.more hd hz) (by simp)
  have he := Script.G2.mul (.up (.up (Script.G4.var hs))) (.up hm)
  have h4 := Script.GStmt.pays (s := callName) (Script.G1.up he)
  rw [h.call] at h4
  simpa using h4

theorem last_parsed (kin twice : Bool) : ∃ N, ∀ n, N ≤ n → Script.pEvent v n (Script.tokens (lastText kin twice)) =
    .ok (lastTree twice (flagName kin) callName barrierName strikeName B K w v.zero (flagAfter kin) []) := by
  apply C27_event
  match kin, twice with
  | false, false =>
    have ht : Script.tokens (lastText false false) =
        [.kw .if_, .kw .spot, .lp, .rp, .cmp .ge, .name barrierName, .colon, .num ['0', '.', '1'], .kw .then_, .name ['a', 'l', 'i', 'v', 'e'], .cmp .eq, .num ['0'], .kw .end_] ++
        ([.name callName, .kw .pays, .name ['a', 'l', 'i', 'v', 'e'], .times, .kw .max_, .lp, .kw .spot, .lp, .rp, .minus, .name strikeName, .comma, .num ['0', '.', '0'], .rp] ++ []) := by decide +kernel
    rw [ht]
    exact Script.GStmts.cons (if_flag h h.alive h.zero) (Script.GStmts.cons (pays_flag h h.alive) Script.GStmts.nil)
  | false, true =>
    have ht : Script.tokens (lastText false true) =
        [.kw .if_, .kw .spot, .lp, .rp, .cmp .ge, .name barrierName, .colon, .num ['0', '.', '1'], .kw .then_, .name ['a', 'l', 'i', 'v', 'e'], .cmp .eq, .num ['0'], .kw .end_] ++ ([.kw .if_, .kw .spot, .lp, .rp, .cmp .ge, .name barrierName, .colon, .num ['0', '.', '1'], .kw .then_, .name ['a', 'l', 'i', 'v', 'e'], .cmp .eq, .num ['0'], .kw .end_] ++
        ([.name callName, .kw .pays, .name ['a', 'l', 'i', 'v', 'e'], .times, .kw .max_, .lp, .kw .spot, .lp, .rp, .minus, .name strikeName, .comma, .num ['0', '.', '0'], .rp] ++ [])) := by decide +kernel
    rw [ht]
    exact Script.GStmts.cons (if_flag h h.alive h.zero) (Script.GStmts.cons (if_flag h h.alive h.zero) (Script.GStmts.cons (pays_flag h h.alive) Script.GStmts.nil))
  | true, false =>
    have ht : Script.tokens (lastText true false) =
        [.kw .if_, .kw .spot, .lp, .rp, .cmp .ge, .name barrierName, .colon, .num ['0', '.', '1'], .kw .then_, .name ['h', 'i', 't'], .cmp .eq, .num ['1'], .kw .end_] ++
        ([.name callName, .kw .pays, .name ['h', 'i', 't'], .times, .kw .max_, .lp, .kw .spot, .lp, .rp, .minus, .name strikeName, .comma, .num ['0', '.', '0'], .rp] ++ []) := by decide +kernel
    rw [ht]
    exact Script.GStmts.cons (if_flag h h.hit h.one) (Script.GStmts.cons (pays_flag h h.hit) Script.GStmts.nil)
  | true, true =>
    have ht : Script.tokens (lastText true true) =
        [.kw .if_, .kw .spot, .lp, .rp, .cmp .ge, .name barrierName, .colon, .num ['0', '.', '1'], .kw .then_, .name ['h', 'i', 't'], .cmp .eq, .num ['1'], .kw .end_] ++ ([.kw .if_, .kw .spot, .lp, .rp, .cmp .ge, .name barrierName, .colon, .num ['0', '.', '1'], .kw .then_, .name ['h', 'i', 't'], .cmp .eq, .num ['1'], .kw .end_] ++
        ([.name callName, .kw .pays, .name ['h', 'i', 't'], .times, .kw .max_, .lp, .kw .spot, .lp, .rp, .minus, .name strikeName, .comma, .num ['0', '.', '0'], .rp] ++ [])) := by decide +kernel
    rw [ht]
    exact Script.GStmts.cons (if_flag h h.hit h.one) (Script.GStmts.cons (if_flag h h.hit h.one) (Script.GStmts.cons (pays_flag h h.hit) Script.GStmts.nil))

end parse

/-! ### Indexing, `IF` processor and domains -/

/-- The program as it is parsed. -/
noncomputable def barrierProg (kin twice : Bool) (n : Nat) (B K w z : ℝ) : List (Script.PStmts ℝ) :=
  startTree (flagName kin) (flagBefore kin) :: (List.replicate n (watchTree (flagName kin) barrierName B w z (flagAfter kin) []) ++
    [lastTree twice (flagName kin) callName barrierName strikeName B K w z (flagAfter kin) []])

/-- The program as it is run. -/
noncomputable def barrierCode (kin twice : Bool) (n : Nat) (B K w z : ℝ) (af : List Nat) : List (Script.Stmts Nat ℝ) :=
  startTree 0 (flagBefore kin) :: (List.replicate n (watchTree 0 0 B w z (flagAfter kin) af) ++ [lastTree twice 0 1 0 1 B K w z (flagAfter kin) af])

private theorem indexed_tail (kin twice : Bool) (cval : List Char → ℝ) (B K w z : ℝ) : ∀ n,
    (⟨[(flagName kin, 0)], [(barrierName, (0, B))]⟩ : Script.Indexer (List Char) ℝ).events cval
      (List.replicate n (watchTree (flagName kin) barrierName B w z (flagAfter kin) []) ++
        [lastTree twice (flagName kin) callName barrierName strikeName B K w z (flagAfter kin) []]) =
      (⟨[(flagName kin, 0), (callName, 1)], [(barrierName, (0, B)), (strikeName, (1, K))]⟩,
        List.replicate n (watchTree 0 0 B w z (flagAfter kin) []) ++ [lastTree twice 0 1 0 1 B K w z (flagAfter kin) []]) := by
  intro n
  induction n with
  | zero => cases kin <;> cases twice <;> rfl
  | succ n ih =>
    rw [List.replicate_succ, List.replicate_succ, List.cons_append, List.cons_append, Script.Indexer.events]
    have h1 : (⟨[(flagName kin, 0)], [(barrierName, (0, B))]⟩ : Script.Indexer (List Char) ℝ).stmts cval (watchTree (flagName kin) barrierName B w z (flagAfter kin) []) =
        (⟨[(flagName kin, 0)], [(barrierName, (0, B))]⟩, watchTree 0 0 B w z (flagAfter kin) []) := by cases kin <;> rfl
    rw [h1]
    dsimp only
    rw [ih]

theorem barrier_indexed (kin twice : Bool) (cval : List Char → ℝ) (B K w z : ℝ) (n : Nat) :
    (⟨[], []⟩ : Script.Indexer (List Char) ℝ).events cval (barrierProg kin twice n B K w z) =
      (⟨[(flagName kin, 0), (callName, 1)], [(barrierName, (0, B)), (strikeName, (1, K))]⟩, barrierCode kin twice n B K w z []) := by
  rw [barrierProg, barrierCode, Script.Indexer.events]
  have h0 : (⟨[], []⟩ : Script.Indexer (List Char) ℝ).stmts cval (startTree (flagName kin) (flagBefore kin)) =
      (⟨[(flagName kin, 0)], []⟩, startTree 0 (flagBefore kin)) := by cases kin <;> rfl
  rw [h0]
  dsimp only
  cases n with
  | zero => cases kin <;> cases twice <;> rfl
  | succ n =>
    rw [List.replicate_succ, List.replicate_succ, List.cons_append, List.cons_append, Script.Indexer.events]
    have h1 : (⟨[(flagName kin, 0)], []⟩ : Script.Indexer (List Char) ℝ).stmts cval (watchTree (flagName kin) barrierName B w z (flagAfter kin) []) =
        (⟨[(flagName kin, 0)], [(barrierName, (0, B))]⟩, watchTree 0 0 B w z (flagAfter kin) []) := by cases kin <;> rfl
    rw [h1]
    dsimp only
    rw [indexed_tail]

private theorem if_tail (kin twice : Bool) (B K w z : ℝ) : ∀ n, Script.ifEvents { maxLvl := 1 }
    (List.replicate n (watchTree 0 0 B w z (flagAfter kin) []) ++ [lastTree twice 0 1 0 1 B K w z (flagAfter kin) []]) =
      ({ maxLvl := 1 }, List.replicate n (watchTree 0 0 B w z (flagAfter kin) [0]) ++ [lastTree twice 0 1 0 1 B K w z (flagAfter kin) [0]]) := by
  intro n
  induction n with
  | zero => cases twice <;> rfl
  | succ n ih =>
    rw [List.replicate_succ, List.replicate_succ, List.cons_append, List.cons_append, Script.ifEvents]
    have h1 : Script.ifStmts { maxLvl := 1 } (watchTree 0 0 B w z (flagAfter kin) []) = ({ maxLvl := 1 }, watchTree 0 0 B w z (flagAfter kin) [0]) := rfl
    rw [h1]
    dsimp only
    rw [ih]

theorem barrier_ifs (kin twice : Bool) (B K w z : ℝ) (n : Nat) :
    Script.ifEvents {} (barrierCode kin twice n B K w z []) = ({ maxLvl := 1 }, barrierCode kin twice n B K w z [0]) := by
  rw [barrierCode, barrierCode, Script.ifEvents]
  have h0 : Script.ifStmts {} (startTree 0 (flagBefore kin)) = ({}, startTree 0 (flagBefore kin)) := rfl
  rw [h0]
  dsimp only
  cases n with
  | zero => cases twice <;> rfl
  | succ n =>
    rw [List.replicate_succ, List.replicate_succ, List.cons_append, List.cons_append, Script.ifEvents]
    have h1 : Script.ifStmts {} (watchTree 0 0 B w z (flagAfter kin) []) = ({ maxLvl := 1 }, watchTree 0 0 B w z (flagAfter kin) [0]) := rfl
    rw [h1]
    dsimp only
    rw [if_tail]

open Dal.Script

private theorem add_cases (X : Dom ℝ) (c : ℝ) (hX : X = [single 0] ∨ X = [single 1] ∨ X = [single 0, single 1]) (hc : c = 0 ∨ c = 1) :
    ∃ Y, addDomain X [single c] = some Y ∧ (Y = [single 0] ∨ Y = [single 1] ∨ Y = [single 0, single 1]) := by
  have h10 : ¬ (1 : ℝ) < 0 := by norm_num
  have hb : ((⟨.fin 0, .fin 0⟩ : Itv ℝ) == ⟨.fin 1, .fin 1⟩) = false := by simp
  rcases hX with rfl | rfl | rfl <;> rcases hc with rfl | rfl
  all_goals
    simp [addDomain, addAll, addItv, addLoop, findMeet, single, Bd.fin_lt_fin, Itv.lt, insertItv, Itv.merge, List.takeWhile, List.dropWhile, List.erase, h10, hb]

private theorem mul_cases (X : Dom ℝ) (hX : X = [single 0] ∨ X = [single 1] ∨ X = [single 0, single 1]) :
    domBin Itv.mul X [halfLine] = some [single 0] ∨ domBin Itv.mul X [halfLine] = some [halfLine] := by
  have h0 : Itv.mul (single (0 : ℝ)) halfLine = some (single 0) := by simp [Itv.mul, Itv.isZero, Itv.isSingleton, single]
  have h1 : Itv.mul (single (1 : ℝ)) halfLine = some halfLine := by
    simp [Itv.mul, Itv.isZero, Itv.isSingleton, single, halfLine, Bd.mul, Bd.pos, Bd.neg, mkItv, Bd.le_pinf]
  rcases hX with rfl | rfl | rfl
  · left; simp [domBin, addAll, h0, addItv, addLoop]
  · right; simp [domBin, addAll, h1, addItv, addLoop]
  · right
    show addAll [] [Itv.mul (single 0) halfLine, Itv.mul (single 1) halfLine] = _
    rw [h0, h1]
    simp [domBin, addAll, h0, h1, addItv, addLoop, findMeet, single, halfLine, Itv.lt, insertItv, Itv.merge, List.takeWhile, List.dropWhile, List.erase, Bd.fin_lt_pinf,
      not_lt.2 (Bd.le_pinf _)]

/-- What the analysis may know about the flag. -/
private def FlagDom (X : Dom ℝ) : Prop := X = [single 0] ∨ X = [single 1] ∨ X = [single 0, single 1]

private theorem one_item (f : Itv ℝ → Itv ℝ → Option (Itv ℝ)) (i j k : Itv ℝ) (h : f i j = some k) : domBin f [i] [j] = some [k] := by
  simp [domBin, addAll, h, addItv, addLoop]

private theorem dom_diff (δ : Nat → Dom ℝ) (k : Nat) (B : ℝ) : domE realOps δ (.bin .sub .spot (.constVar k B) none) = some [line] := by
  refine one_item _ _ _ _ ?_
  simp [Itv.sub, Itv.opp, single, line, Itv.add, mkItv, Bd.opp, Bd.minf_le]

private theorem dom_test (fuzzy : Bool) (δ : Nat → Dom ℝ) (B w z : ℝ) :
    domC realOps fuzzy δ (.cmp .supEq (.bin .sub .spot (.constVar 0 B) none) ⟨w, false, z, z⟩ {}) =
      some (.cmp .supEq (.bin .sub .spot (.constVar 0 B) none) ⟨w, false, z, z⟩ {}, .either) := by
  rw [domC, dom_diff]
  have hp : cmpProp .supEq [(line : Itv ℝ)] = .either := by
    simp [cmpProp, canBePositive, canBeNegative, line, Bd.le_pinf, Bd.minf_lt_fin]
  have ha : cmpAttr .supEq [(line : Itv ℝ)] ⟨w, false, z, z⟩ = ⟨w, false, z, z⟩ := by
    simp [cmpAttr, canBeZero, zeroIsDiscrete, line, Bd.le_pinf, Bd.minf_le, Itv.isZero, Itv.isSingleton]
  dsimp only
  rw [hp, ha]
  cases fuzzy <;> rfl

private theorem dom_if (fuzzy : Bool) (δ : Nat → Dom ℝ) (B w z c : ℝ) (hc : c = 0 ∨ c = 1) (hX : FlagDom (δ 0)) :
    ∃ Y, FlagDom Y ∧ domS realOps fuzzy (barrierIf 0 0 B w z c [0]) δ = some (barrierIf 0 0 B w z c [0], upd δ 0 Y) := by
  obtain ⟨Y, h1, h2⟩ := add_cases (δ 0) c hX hc
  refine ⟨Y, h2, ?_⟩
  rw [barrierIf, domS, dom_test, Option.bind_some]
  have ht : domSs realOps fuzzy (.cons (.assign ⟨0, false⟩ (.const c)) .nil) δ = some (.cons (.assign ⟨0, false⟩ (.const c)) .nil, upd δ 0 [single c]) := rfl
  have hr : (fun j => if j ∈ [0] then δ j else upd δ 0 [single c] j) = δ := by
    funext j
    by_cases hj : j = 0
    · simp [hj]
    · simp [hj, upd]
  have hm : mergeVars (upd δ 0 [single c]) [0] δ = some (upd δ 0 Y) := by
    show (addDomain (δ 0) [single c]).bind _ = _
    rw [h1]
    rfl
  show ((domSs realOps fuzzy (.cons (.assign ⟨0, false⟩ (.const c)) .nil) δ).bind _) = _
  rw [ht, Option.bind_some]
  show (mergeVars (upd δ 0 [single c]) [0] (fun j => if j ∈ [0] then δ j else upd δ 0 [single c] j)).map _ = _
  rw [hr]
  rw [hm]
  rfl

private theorem dom_watch (fuzzy : Bool) (δ : Nat → Dom ℝ) (B w z c : ℝ) (hc : c = 0 ∨ c = 1) (hX : FlagDom (δ 0)) :
    ∃ Y, FlagDom Y ∧ domSs realOps fuzzy (watchTree 0 0 B w z c [0]) δ = some (watchTree 0 0 B w z c [0], upd δ 0 Y) := by
  obtain ⟨Y, h1, h2⟩ := dom_if fuzzy δ B w z c hc hX
  refine ⟨Y, h1, ?_⟩
  rw [watchTree, domSs, h2]
  rfl

private theorem itv_max : Itv.imax (single (0 : ℝ)) line = some halfLine := by
  simp [Itv.imax, single, line, halfLine, mkItv, Bd.le_pinf, Bd.fin_lt_pinf, not_lt.2 (Bd.minf_le _)]

private theorem itv_div : Itv.div (halfLine : Itv ℝ) halfLine = some halfLine ∧ Itv.div (single (0 : ℝ)) halfLine = some (single 0) := by
  constructor <;> simp [Itv.div, Itv.inv, Itv.isSingleton, halfLine, mkItv, Bd.le_pinf, Itv.mul, Itv.isZero, Bd.mul, Bd.pos, Bd.neg, single]

private theorem itv_add : Itv.add (single (0 : ℝ)) halfLine = some halfLine ∧ Itv.add (single (0 : ℝ)) (single 0) = some (single 0) := by
  constructor <;> simp [Itv.add, single, halfLine, mkItv, Bd.le_pinf]

private theorem dom_pay (fuzzy : Bool) (δ : Nat → Dom ℝ) (B K w z c : ℝ) (hc : c = 0 ∨ c = 1) (hX : FlagDom (δ 0)) (h1 : δ 1 = [single 0]) :
    ∃ δ', domSs realOps fuzzy (payTree 0 1 0 1 B K w z c [0]) δ = some (payTree 0 1 0 1 B K w z c [0], δ') := by
  obtain ⟨Y, g1, g2⟩ := dom_if fuzzy δ B w z c hc hX
  have hm : domE realOps (upd δ 0 Y) (.bin .max (.bin .sub .spot (.constVar 1 K) none) (.const 0) none) = some [halfLine] := by
    rw [domE, dom_diff]
    exact one_item _ _ _ _ itv_max
  have hv : domE realOps (upd δ 0 Y) (.var 0 none) = some Y := rfl
  have hu : upd δ 0 Y 1 = [single 0] := h1
  rcases mul_cases Y g1 with h | h
  · have he : domE realOps (upd δ 0 Y) (.bin .mul (.var 0 none) (.bin .max (.bin .sub .spot (.constVar 1 K) none) (.const 0) none) none) = some [single 0] := by
      rw [domE, hv, hm]; exact h
    refine ⟨upd (upd δ 0 Y) 1 [single 0], ?_⟩
    rw [payTree, domSs, g2, Option.bind_some]
    dsimp only
    rw [domSs, domS, he, Option.bind_some, one_item _ _ _ _ itv_div.2, Option.bind_some]
    dsimp only
    rw [hu, one_item _ _ _ _ itv_add.2]
    rfl
  · have he : domE realOps (upd δ 0 Y) (.bin .mul (.var 0 none) (.bin .max (.bin .sub .spot (.constVar 1 K) none) (.const 0) none) none) = some [halfLine] := by
      rw [domE, hv, hm]; exact h
    refine ⟨upd (upd δ 0 Y) 1 [halfLine], ?_⟩
    rw [payTree, domSs, g2, Option.bind_some]
    dsimp only
    rw [domSs, domS, he, Option.bind_some, one_item _ _ _ _ itv_div.1, Option.bind_some]
    dsimp only
    rw [hu, one_item _ _ _ _ itv_add.1]
    rfl

private theorem dom_last (fuzzy twice : Bool) (δ : Nat → Dom ℝ) (B K w z c : ℝ) (hc : c = 0 ∨ c = 1) (hX : FlagDom (δ 0)) (h1 : δ 1 = [single 0]) :
    ∃ δ', domSs realOps fuzzy (lastTree twice 0 1 0 1 B K w z c [0]) δ = some (lastTree twice 0 1 0 1 B K w z c [0], δ') := by
  cases twice with
  | false => exact dom_pay fuzzy δ B K w z c hc hX h1
  | true =>
    obtain ⟨Y, g1, g2⟩ := dom_if fuzzy δ B w z c hc hX
    obtain ⟨δ', h⟩ := dom_pay fuzzy (upd δ 0 Y) B K w z c hc g1 h1
    refine ⟨δ', ?_⟩
    show domSs realOps fuzzy (.cons (barrierIf 0 0 B w z c [0]) (payTree 0 1 0 1 B K w z c [0])) δ = _
    rw [domSs, g2, Option.bind_some]
    dsimp only
    rw [h]
    rfl

private theorem dom_tail (fuzzy twice : Bool) (B K w z c : ℝ) (hc : c = 0 ∨ c = 1) : ∀ (n : Nat) (δ : Nat → Dom ℝ), FlagDom (δ 0) → δ 1 = [single 0] →
    ∃ δ', domEvents realOps fuzzy (List.replicate n (watchTree 0 0 B w z c [0]) ++ [lastTree twice 0 1 0 1 B K w z c [0]]) δ =
      some (List.replicate n (watchTree 0 0 B w z c [0]) ++ [lastTree twice 0 1 0 1 B K w z c [0]], δ') := by
  intro n
  induction n with
  | zero =>
    intro δ h0 h1
    obtain ⟨δ', h⟩ := dom_last fuzzy twice δ B K w z c hc h0 h1
    refine ⟨δ', ?_⟩
    show domEvents realOps fuzzy [lastTree twice 0 1 0 1 B K w z c [0]] δ = _
    rw [domEvents, h]
    rfl
  | succ n ih =>
    intro δ h0 h1
    obtain ⟨Y, g1, g2⟩ := dom_watch fuzzy δ B w z c hc h0
    obtain ⟨δ', h⟩ := ih (upd δ 0 Y) g1 h1
    refine ⟨δ', ?_⟩
    rw [List.replicate_succ, List.cons_append, domEvents, g2, Option.bind_some]
    dsimp only
    rw [h]
    rfl

/-- The processed product, whatever the flag for smoothing. -/
theorem barrier_prepared (fuzzy kin twice : Bool) (cval : List Char → ℝ) (n : Nat) (B K w z : ℝ) :
    prepare fuzzy callName cval (barrierProg kin twice n B K w z) =
      some ⟨[some (flagName kin), some callName], [barrierName, strikeName], [B, K], 1, barrierCode kin twice n B K w z [0], 1⟩ := by
  have hc : flagAfter kin = 0 ∨ flagAfter kin = 1 := by cases kin <;> simp [flagAfter]
  have hb : FlagDom (upd domInit 0 [single (flagBefore kin)] 0) := by
    show FlagDom [single (flagBefore kin)]
    cases kin
    · exact Or.inr (Or.inl rfl)
    · exact Or.inl rfl
  obtain ⟨δ', h⟩ := dom_tail fuzzy twice B K w z (flagAfter kin) hc n (upd domInit 0 [single (flagBefore kin)]) hb rfl
  have hd : domEvents realOps fuzzy (barrierCode kin twice n B K w z [0]) domInit = some (barrierCode kin twice n B K w z [0], δ') := by
    have h0 : domSs realOps fuzzy (startTree 0 (flagBefore kin)) domInit = some (startTree 0 (flagBefore kin), upd domInit 0 [single (flagBefore kin)]) := rfl
    rw [barrierCode, domEvents, h0, Option.bind_some]
    dsimp only
    rw [h]
    rfl
  unfold prepare
  rw [barrier_indexed]
  dsimp only
  rw [barrier_ifs, hd]
  have hp : payoffIdx callName (⟨[(flagName kin, 0), (callName, 1)], [(barrierName, (0, B)), (strikeName, (1, K))]⟩ : Indexer (List Char) ℝ).varNames = some 1 := by
    cases kin <;> rfl
  rw [hp]
  dsimp only [filled, Indexer.constNames, Indexer.constValues, Indexer.varNames]
  have hcc : (barrierCode kin twice n B K w z [0]).map ccSs = barrierCode kin twice n B K w z [0] := by
    rw [barrierCode, List.map_cons, List.map_append, List.map_replicate]
    cases twice <;> rfl
  rw [hcc]
  rfl

end Dal

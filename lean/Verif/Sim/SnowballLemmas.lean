import Verif.Sim.SnowballText
import Verif.Sim.SnowballSpec

/-! # The snowball as a script: processed trees and their smoothed runs -/

namespace Dal
open Dal.Report

/-- The trees. -/
noncomputable def snowProg (L H C K w z : ℝ) (ys : List ℝ) (y : ℝ) : List (Script.PStmts ℝ) :=
  snowStart aliveName kiName :: ((ys.map fun d => snowLook aliveName kiName callName lowName highName couponName L H C w z d [] []) ++
    [snowEnd aliveName kiName callName lowName highName couponName strikeName L H C K w z y [] []])

/-- The trees with indices; `a1` and `a2` are the variables that the two tests may change. -/
noncomputable def snowCode (L H C K w z : ℝ) (ys : List ℝ) (y : ℝ) (a1 a2 : List Nat) : List (Script.Stmts Nat ℝ) :=
  snowStart 0 1 :: ((ys.map fun d => snowLook 0 1 2 0 1 2 L H C w z d a1 a2) ++ [snowEnd 0 1 2 0 1 2 3 L H C K w z y a1 a2])

private theorem end_indexed {ν : Type} [DecidableEq ν] (cval : ν → ℝ) {x y p l h c k : ν} (hxy : x ≠ y) (hxp : x ≠ p) (hyp : y ≠ p) (hlh : l ≠ h) (hlc : l ≠ c) (hlk : l ≠ k)
    (hhc : h ≠ c) (hhk : h ≠ k) (hck : c ≠ k) (L H C K w z d : ℝ) :
    (⟨[(x, 0), (y, 1), (p, 2)], [(l, (0, L)), (h, (1, H)), (c, (2, C))]⟩ : Script.Indexer ν ℝ).stmts cval (snowEnd x y p l h c k L H C K w z d [] []) =
      (⟨[(x, 0), (y, 1), (p, 2)], [(l, (0, L)), (h, (1, H)), (c, (2, C)), (k, (3, K))]⟩, snowEnd 0 1 2 0 1 2 3 L H C K w z d [] []) ∧
    (⟨[(x, 0), (y, 1)], []⟩ : Script.Indexer ν ℝ).stmts cval (snowEnd x y p l h c k L H C K w z d [] []) =
      (⟨[(x, 0), (y, 1), (p, 2)], [(l, (0, L)), (h, (1, H)), (c, (2, C)), (k, (3, K))]⟩, snowEnd 0 1 2 0 1 2 3 L H C K w z d [] []) := by
  constructor <;>
  simp [snowEnd, snowLow, snowHigh, snowPay, Script.Indexer.stmts, Script.Indexer.stmt, Script.Indexer.cond, Script.Indexer.expr, Script.Indexer.lhs, Script.Indexer.visitVar,
    Script.Indexer.visitConst, Script.find, hxy, hxp, hyp, hlh, hlc, hlk, hhc, hhk, hck]

private theorem end_named (cval : List Char → ℝ) (L H C K w z d : ℝ) :
    (⟨[(aliveName, 0), (kiName, 1), (callName, 2)], [(lowName, (0, L)), (highName, (1, H)), (couponName, (2, C))]⟩ : Script.Indexer (List Char) ℝ).stmts cval
      (snowEnd aliveName kiName callName lowName highName couponName strikeName L H C K w z d [] []) =
      (⟨[(aliveName, 0), (kiName, 1), (callName, 2)], [(lowName, (0, L)), (highName, (1, H)), (couponName, (2, C)), (strikeName, (3, K))]⟩, snowEnd 0 1 2 0 1 2 3 L H C K w z d [] []) ∧
    (⟨[(aliveName, 0), (kiName, 1)], []⟩ : Script.Indexer (List Char) ℝ).stmts cval (snowEnd aliveName kiName callName lowName highName couponName strikeName L H C K w z d [] []) =
      (⟨[(aliveName, 0), (kiName, 1), (callName, 2)], [(lowName, (0, L)), (highName, (1, H)), (couponName, (2, C)), (strikeName, (3, K))]⟩, snowEnd 0 1 2 0 1 2 3 L H C K w z d [] []) :=
  end_indexed cval (x := aliveName) (y := kiName) (p := callName) (l := lowName) (h := highName) (c := couponName) (k := strikeName) (by decide) (by decide) (by decide) (by decide)
    (by decide) (by decide) (by decide) (by decide) (by decide) L H C K w z d

private theorem indexed_tail (cval : List Char → ℝ) (L H C K w z y : ℝ) : ∀ ys : List ℝ,
    (⟨[(aliveName, 0), (kiName, 1), (callName, 2)], [(lowName, (0, L)), (highName, (1, H)), (couponName, (2, C))]⟩ : Script.Indexer (List Char) ℝ).events cval
      ((ys.map fun d => snowLook aliveName kiName callName lowName highName couponName L H C w z d [] []) ++
        [snowEnd aliveName kiName callName lowName highName couponName strikeName L H C K w z y [] []]) =
      (⟨[(aliveName, 0), (kiName, 1), (callName, 2)], [(lowName, (0, L)), (highName, (1, H)), (couponName, (2, C)), (strikeName, (3, K))]⟩,
        (ys.map fun d => snowLook 0 1 2 0 1 2 L H C w z d [] []) ++ [snowEnd 0 1 2 0 1 2 3 L H C K w z y [] []]) := by
  intro ys
  induction ys with
  | nil =>
    rw [List.map_nil, List.map_nil, List.nil_append, List.nil_append, Script.Indexer.events, (end_named cval L H C K w z y).1]
    rfl
  | cons d ys ih =>
    rw [List.map_cons, List.map_cons, List.cons_append, List.cons_append, Script.Indexer.events]
    have h1 : (⟨[(aliveName, 0), (kiName, 1), (callName, 2)], [(lowName, (0, L)), (highName, (1, H)), (couponName, (2, C))]⟩ : Script.Indexer (List Char) ℝ).stmts cval
        (snowLook aliveName kiName callName lowName highName couponName L H C w z d [] []) =
        (⟨[(aliveName, 0), (kiName, 1), (callName, 2)], [(lowName, (0, L)), (highName, (1, H)), (couponName, (2, C))]⟩, snowLook 0 1 2 0 1 2 L H C w z d [] []) := rfl
    rw [h1]
    dsimp only
    rw [ih]

theorem snow_indexed (cval : List Char → ℝ) (L H C K w z y : ℝ) (ys : List ℝ) :
    (⟨[], []⟩ : Script.Indexer (List Char) ℝ).events cval (snowProg L H C K w z ys y) =
      (⟨[(aliveName, 0), (kiName, 1), (callName, 2)], [(lowName, (0, L)), (highName, (1, H)), (couponName, (2, C)), (strikeName, (3, K))]⟩, snowCode L H C K w z ys y [] []) := by
  rw [snowProg, snowCode, Script.Indexer.events]
  have h0 : (⟨[], []⟩ : Script.Indexer (List Char) ℝ).stmts cval (snowStart aliveName kiName) = (⟨[(aliveName, 0), (kiName, 1)], []⟩, snowStart 0 1) := rfl
  rw [h0]
  dsimp only
  cases ys with
  | nil =>
    rw [List.map_nil, List.map_nil, List.nil_append, List.nil_append, Script.Indexer.events, (end_named cval L H C K w z y).2]
    rfl
  | cons d ys =>
    rw [List.map_cons, List.map_cons, List.cons_append, List.cons_append, Script.Indexer.events]
    have h1 : (⟨[(aliveName, 0), (kiName, 1)], []⟩ : Script.Indexer (List Char) ℝ).stmts cval
        (snowLook aliveName kiName callName lowName highName couponName L H C w z d [] []) =
        (⟨[(aliveName, 0), (kiName, 1), (callName, 2)], [(lowName, (0, L)), (highName, (1, H)), (couponName, (2, C))]⟩, snowLook 0 1 2 0 1 2 L H C w z d [] []) := rfl
    rw [h1]
    dsimp only
    rw [indexed_tail]

private theorem if_tail (L H C K w z y : ℝ) : ∀ ys : List ℝ, Script.ifEvents { maxLvl := 1 }
    ((ys.map fun d => snowLook 0 1 2 0 1 2 L H C w z d [] []) ++ [snowEnd 0 1 2 0 1 2 3 L H C K w z y [] []]) =
      ({ maxLvl := 1 }, (ys.map fun d => snowLook 0 1 2 0 1 2 L H C w z d [1] [0, 2]) ++ [snowEnd 0 1 2 0 1 2 3 L H C K w z y [1] [0, 2]]) := by
  intro ys
  induction ys with
  | nil => rfl
  | cons d ys ih =>
    rw [List.map_cons, List.map_cons, List.cons_append, List.cons_append, Script.ifEvents]
    have h1 : Script.ifStmts { maxLvl := 1 } (snowLook 0 1 2 0 1 2 L H C w z d [] []) = ({ maxLvl := 1 }, snowLook 0 1 2 0 1 2 L H C w z d [1] [0, 2]) := rfl
    rw [h1]
    dsimp only
    rw [ih]

theorem snow_ifs (L H C K w z y : ℝ) (ys : List ℝ) :
    Script.ifEvents {} (snowCode L H C K w z ys y [] []) = ({ maxLvl := 1 }, snowCode L H C K w z ys y [1] [0, 2]) := by
  rw [snowCode, snowCode, Script.ifEvents]
  have h0 : Script.ifStmts {} (snowStart 0 1 : Script.Stmts Nat ℝ) = ({}, snowStart 0 1) := rfl
  rw [h0]
  dsimp only
  cases ys with
  | nil => rfl
  | cons d ys =>
    rw [List.map_cons, List.map_cons, List.cons_append, List.cons_append, Script.ifEvents]
    have h1 : Script.ifStmts {} (snowLook 0 1 2 0 1 2 L H C w z d [] []) = ({ maxLvl := 1 }, snowLook 0 1 2 0 1 2 L H C w z d [1] [0, 2]) := rfl
    rw [h1]
    dsimp only
    rw [if_tail]

open Dal.Script

private theorem one_item (f : Itv ℝ → Itv ℝ → Option (Itv ℝ)) (i j k : Itv ℝ) (h : f i j = some k) : domBin f [i] [j] = some [k] := by
  simp [domBin, addAll, h, addItv, addLoop]

/-- Nothing is known about a difference with the spot. -/
private theorem dom_test (fuzzy : Bool) (δ : Nat → Dom ℝ) (e : Script.Expr Nat ℝ) (w z : ℝ) (he : domE realOps δ e = some [line]) :
    domC realOps fuzzy δ (.cmp .sup e ⟨w, false, z, z⟩ {}) = some (.cmp .sup e ⟨w, false, z, z⟩ {}, .either) := by
  rw [domC, he]
  have hp : cmpProp .sup [(line : Itv ℝ)] = .either := by
    simp [cmpProp, canBePositive, canBeNegative, line, Bd.minf_le, Bd.fin_lt_pinf]
  have ha : cmpAttr .sup [(line : Itv ℝ)] ⟨w, false, z, z⟩ = ⟨w, false, z, z⟩ := by
    simp [cmpAttr, canBeZero, zeroIsDiscrete, line, Bd.le_pinf, Bd.minf_le, Itv.isZero, Itv.isSingleton]
  dsimp only
  rw [hp, ha]
  cases fuzzy <;> rfl

/-- The analysis leaves the tree as it is. -/
private def KeepS (fuzzy : Bool) (s : Script.Stmt Nat ℝ) : Prop := ∀ δ r, domS realOps fuzzy s δ = some r → r.1 = s
/-- The analysis leaves the trees as they are. -/
private def KeepSs (fuzzy : Bool) (s : Script.Stmts Nat ℝ) : Prop := ∀ δ r, domSs realOps fuzzy s δ = some r → r.1 = s

private theorem keep_nil (fuzzy : Bool) : KeepSs fuzzy .nil := by
  intro δ r h
  rw [domSs] at h
  rw [← Option.some.inj h]

private theorem keep_cons {fuzzy : Bool} {s : Script.Stmt Nat ℝ} {ss : Script.Stmts Nat ℝ} (h1 : KeepS fuzzy s) (h2 : KeepSs fuzzy ss) : KeepSs fuzzy (.cons s ss) := by
  intro δ r h
  rw [domSs] at h
  obtain ⟨r1, e1, h⟩ := Option.bind_eq_some_iff.1 h
  obtain ⟨r2, e2, h⟩ := Option.map_eq_some_iff.1 h
  rw [← h, h1 _ _ e1, h2 _ _ e2]

private theorem keep_assign (fuzzy : Bool) (x : Lhs Nat) (e : Script.Expr Nat ℝ) : KeepS fuzzy (.assign x e) := by
  intro δ r h
  rw [domS] at h
  obtain ⟨d, -, h⟩ := Option.map_eq_some_iff.1 h
  rw [← h]

private theorem keep_pays (fuzzy : Bool) (x : Lhs Nat) (e : Script.Expr Nat ℝ) : KeepS fuzzy (.pays x e) := by
  intro δ r h
  rw [domS] at h
  obtain ⟨d, -, h⟩ := Option.bind_eq_some_iff.1 h
  obtain ⟨p, -, h⟩ := Option.bind_eq_some_iff.1 h
  obtain ⟨q, -, h⟩ := Option.map_eq_some_iff.1 h
  rw [← h]

private theorem keep_if {fuzzy : Bool} {c : Script.Cond Nat ℝ} {t e : Script.Stmts Nat ℝ} (af : List Nat) (hc : ∀ δ, domC realOps fuzzy δ c = some (c, .either)) (ht : KeepSs fuzzy t) :
    KeepS fuzzy (.ite c t false e af {}) := by
  intro δ r h
  rw [domS, hc, Option.bind_some] at h
  obtain ⟨r1, e1, h⟩ := Option.bind_eq_some_iff.1 h
  obtain ⟨r2, e2, h⟩ := Option.bind_eq_some_iff.1 h
  obtain ⟨δ', -, h⟩ := Option.map_eq_some_iff.1 h
  rw [if_neg (by simp)] at e2
  rw [← h, ← Option.some.inj e2, ht _ _ e1]

private theorem keep_low (fuzzy : Bool) (L w z : ℝ) (af : List Nat) : KeepS fuzzy (snowLow 1 0 L w z af) := by
  refine keep_if af (fun δ => dom_test fuzzy δ _ w z ?_) (keep_cons (keep_assign _ _ _) (keep_nil _))
  refine one_item _ _ _ _ ?_
  simp [Itv.sub, Itv.opp, single, line, Itv.add, mkItv, Bd.opp, Bd.minf_le]

private theorem keep_high (fuzzy : Bool) (H C d w z : ℝ) (af : List Nat) : KeepS fuzzy (snowHigh 0 2 1 2 H C d w z af) := by
  refine keep_if af (fun δ => dom_test fuzzy δ _ w z ?_) (keep_cons (keep_pays _ _ _) (keep_cons (keep_assign _ _ _) (keep_nil _)))
  refine one_item _ _ _ _ ?_
  simp [Itv.sub, Itv.opp, single, line, Itv.add, mkItv, Bd.opp, Bd.minf_le]

private theorem keep_events (fuzzy : Bool) : ∀ (evs : List (Script.Stmts Nat ℝ)), (∀ e ∈ evs, KeepSs fuzzy e) → ∀ δ r, domEvents realOps fuzzy evs δ = some r → r.1 = evs := by
  intro evs
  induction evs with
  | nil =>
    intro _ δ r h
    rw [domEvents] at h
    rw [← Option.some.inj h]
  | cons e evs ih =>
    intro hk δ r h
    rw [domEvents] at h
    obtain ⟨r1, e1, h⟩ := Option.bind_eq_some_iff.1 h
    obtain ⟨r2, e2, h⟩ := Option.map_eq_some_iff.1 h
    rw [← h, hk e (by simp) _ _ e1, ih (fun x hx => hk x (by simp [hx])) _ _ e2]

private theorem keep_code (fuzzy : Bool) (L H C K w z : ℝ) (ys : List ℝ) (y : ℝ) (a1 a2 : List Nat) : ∀ e ∈ snowCode L H C K w z ys y a1 a2, KeepSs fuzzy e := by
  intro e he
  simp only [snowCode, List.mem_cons, List.mem_append, List.mem_map, List.not_mem_nil, or_false] at he
  rcases he with rfl | ⟨d, -, rfl⟩ | rfl
  · exact keep_cons (keep_assign _ _ _) (keep_cons (keep_assign _ _ _) (keep_nil _))
  · exact keep_cons (keep_low _ _ _ _ _) (keep_cons (keep_high _ _ _ _ _ _ _) (keep_nil _))
  · exact keep_cons (keep_low _ _ _ _ _) (keep_cons (keep_high _ _ _ _ _ _ _) (keep_cons (keep_pays _ _ _) (keep_nil _)))

/-- The processed product. -/
theorem snow_prepared {fuzzy : Bool} {cval : List Char → ℝ} {L H C K w z y : ℝ} {ys : List ℝ} {q : Prepared} (h : prepare fuzzy callName cval (snowProg L H C K w z ys y) = some q) :
    q = ⟨[some aliveName, some kiName, some callName], [lowName, highName, couponName, strikeName], [L, H, C, K], 2, snowCode L H C K w z ys y [1] [0, 2], 1⟩ := by
  unfold prepare at h
  rw [snow_indexed] at h
  dsimp only at h
  rw [snow_ifs] at h
  have hp : payoffIdx callName (⟨[(aliveName, 0), (kiName, 1), (callName, 2)], [(lowName, (0, L)), (highName, (1, H)), (couponName, (2, C)), (strikeName, (3, K))]⟩ :
    Indexer (List Char) ℝ).varNames = some 2 := rfl
  rw [hp] at h
  dsimp only [filled, Indexer.constNames, Indexer.constValues, Indexer.varNames] at h
  cases hd : domEvents realOps fuzzy (snowCode L H C K w z ys y [1] [0, 2]) domInit with
  | none => rw [hd] at h; cases h
  | some r =>
    rw [hd] at h
    have hr := keep_events fuzzy _ (keep_code fuzzy L H C K w z ys y [1] [0, 2]) _ _ hd
    have hcc : r.1.map ccSs = snowCode L H C K w z ys y [1] [0, 2] := by
      rw [hr, snowCode, List.map_cons, List.map_append, List.map_map]
      rfl
    have h' := Option.some.inj h
    rw [← h', hcc]
    rfl

/-! ### Smoothed runs -/

private theorem fuzzy_test (cv : Nat → ℝ) (d w z : ℝ) (e : Script.Expr Nat ℝ) (hw : 0 < w) (sp : Script.Sample ℝ) (σ : Nat → ℝ) :
    fuzzyC realOps cv sp d σ (.cmp .sup e ⟨w, false, z, z⟩ {}) = some (Barrier.degree w (evalE realOps cv sp σ e)) := by
  show cspr _ (if w < 0 then d else w) = _
  rw [if_neg (not_lt.2 hw.le), Barrier.degree_cspr _ _ hw]

private theorem fuzzy_low (cv : Nat → ℝ) (d eps L w z : ℝ) (hL : cv 0 = L) (hw : 0 < w) (sp : Script.Sample ℝ) (lvl : Nat) (s : FSt ℝ) :
    ∃ s', fuzzyS realOps cv sp d eps (snowLow 1 0 L w z [1]) lvl s = some s' ∧
      s'.σ = upd s.σ 1 (Barrier.left eps w (L - sp.spot) * s.σ 1 + (1 - Barrier.left eps w (L - sp.spot))) := by
  rw [snowLow, fuzzyS, fuzzy_test cv d w z _ hw]
  have he : evalE realOps cv sp s.σ (.bin .sub (.constVar 0 L) .spot none) = L - sp.spot := by
    show cv 0 - sp.spot = _
    rw [hL]
  rw [he]
  dsimp only
  rw [Barrier.left]
  by_cases h1 : 1 - eps < Barrier.degree w (L - sp.spot)
  · rw [if_pos h1, if_pos h1]
    refine ⟨_, rfl, ?_⟩
    show upd s.σ 1 1 = _
    simp
  · rw [if_neg h1, if_neg h1]
    by_cases h2 : Barrier.degree w (L - sp.spot) < eps
    · rw [if_pos h2, if_pos h2, if_neg (by simp)]
      refine ⟨_, rfl, ?_⟩
      funext j
      by_cases hj : j = 1 <;> simp [upd, hj]
    · rw [if_neg h2, if_neg h2]
      refine ⟨_, rfl, ?_⟩
      funext j
      by_cases hj : j = 1
      · simp [setVars, setRow, upd, hj, evalE]; ring
      · simp [setVars, setRow, upd, hj, evalE]

private theorem fuzzy_high (cv : Nat → ℝ) (d eps H C D w z : ℝ) (hH : cv 1 = H) (hC : cv 2 = C) (hw : 0 < w) (sp : Script.Sample ℝ) (lvl : Nat) (s : FSt ℝ) :
    ∃ s', fuzzyS realOps cv sp d eps (snowHigh 0 2 1 2 H C D w z [0, 2]) lvl s = some s' ∧
      s'.σ 0 = Barrier.left eps w (sp.spot - H) * s.σ 0 ∧ s'.σ 1 = s.σ 1 ∧
      s'.σ 2 = s.σ 2 + (1 - Barrier.left eps w (sp.spot - H)) * s.σ 0 * (C * D / sp.numeraire) := by
  rw [snowHigh, fuzzyS, fuzzy_test cv d w z _ hw]
  have he : evalE realOps cv sp s.σ (.bin .sub .spot (.constVar 1 H) none) = sp.spot - H := by
    show sp.spot - cv 1 = _
    rw [hH]
  rw [he]
  dsimp only
  rw [Barrier.left]
  by_cases h1 : 1 - eps < Barrier.degree w (sp.spot - H)
  · rw [if_pos h1, if_pos h1]
    refine ⟨_, rfl, ?_, ?_, ?_⟩
    · show (0 : ℝ) = _
      simp
    · rfl
    · show s.σ 2 + s.σ 0 * cv 2 * D / sp.numeraire = _
      rw [hC]; ring
  · rw [if_neg h1, if_neg h1]
    by_cases h2 : Barrier.degree w (sp.spot - H) < eps
    · rw [if_pos h2, if_pos h2, if_neg (by simp)]
      refine ⟨_, rfl, ?_, rfl, ?_⟩ <;> simp
    · rw [if_neg h2, if_neg h2]
      refine ⟨_, rfl, ?_, ?_, ?_⟩
      · simp [setVars, setRow, upd, evalE, realOps]
      · simp [setVars, setRow, upd, evalE, realOps]
      · simp [setVars, setRow, upd, evalE, evalBin, realOps, hC]; ring

private theorem fuzzy_look (cv : Nat → ℝ) (d eps L H C D w z : ℝ) (hL : cv 0 = L) (hH : cv 1 = H) (hC : cv 2 = C) (hw : 0 < w) (sp : Script.Sample ℝ) (s : FSt ℝ) (rest : Script.Stmts Nat ℝ) :
    ∃ s', fuzzySs realOps cv sp d eps (.cons (snowLow 1 0 L w z [1]) (.cons (snowHigh 0 2 1 2 H C D w z [0, 2]) rest)) 0 s = fuzzySs realOps cv sp d eps rest 0 s' ∧
      s'.σ 0 = Barrier.left eps w (sp.spot - H) * s.σ 0 ∧ 1 - s'.σ 1 = (1 - s.σ 1) * Barrier.left eps w (L - sp.spot) ∧
      s'.σ 2 = s.σ 2 + (1 - Barrier.left eps w (sp.spot - H)) * s.σ 0 * (C * D / sp.numeraire) := by
  obtain ⟨s1, h1, h2⟩ := fuzzy_low cv d eps L w z hL hw sp 0 s
  obtain ⟨s2, h3, h4, h5, h6⟩ := fuzzy_high cv d eps H C D w z hH hC hw sp 0 s1
  refine ⟨s2, ?_, ?_, ?_, ?_⟩
  · rw [fuzzySs, h1]
    dsimp only [Option.bind_some]
    rw [fuzzySs, h3]
  · rw [h4, h2]; rfl
  · rw [h5, h2]; simp [upd]; ring
  · rw [h6, h2]; rfl

/-- The events after the first. -/
private theorem fuzzy_rest (cv : Nat → ℝ) (d eps L H C K w z : ℝ) (hL : cv 0 = L) (hH : cv 1 = H) (hC : cv 2 = C) (hK : cv 3 = K) (hw : 0 < w) (sT : Script.Sample ℝ) (D : ℝ) :
    ∀ (ys : List ℝ) (ws : List (Script.Sample ℝ)), ws.length = ys.length → ∀ s : FSt ℝ, ∃ s',
      fuzzyEvents cv d eps (((ys.map fun d => snowLook 0 1 2 0 1 2 L H C w z d [1] [0, 2]) ++ [snowEnd 0 1 2 0 1 2 3 L H C K w z D [1] [0, 2]]).zip (ws ++ [sT])) s = some s' ∧
      s'.σ 2 = s.σ 2 + s.σ 0 * Snowball.smoothWorth eps w ⟨L, H, C, K⟩ ⟨sT.spot, sT.numeraire, D⟩ (List.zipWith (fun y u => ⟨u.spot, u.numeraire, y⟩) ys ws) (1 - s.σ 1) := by
  intro ys
  induction ys with
  | nil =>
    intro ws hws s
    rw [List.length_nil, List.length_eq_zero_iff] at hws
    subst hws
    obtain ⟨s1, h1, h2, h3, h4⟩ := fuzzy_look cv d eps L H C D w z hL hH hC hw sT s (.cons (snowPay 0 1 2 2 3 C K D) .nil)
    refine ⟨{ s1 with σ := upd s1.σ 2 (s1.σ 2 + (s1.σ 0 * s1.σ 1 * (sT.spot - cv 3) + s1.σ 0 * (1 - s1.σ 1) * cv 2 * D) / sT.numeraire) }, ?_, ?_⟩
    · show (fuzzySs realOps cv sT d eps (snowEnd 0 1 2 0 1 2 3 L H C K w z D [1] [0, 2]) 0 s).bind _ = _
      rw [snowEnd, h1]
      rfl
    · show s1.σ 2 + (s1.σ 0 * s1.σ 1 * (sT.spot - cv 3) + s1.σ 0 * (1 - s1.σ 1) * cv 2 * D) / sT.numeraire = _
      have h5 : s1.σ 1 = 1 - (1 - s.σ 1) * Barrier.left eps w (L - sT.spot) := by linarith
      rw [h3, h4, h2, h5, hC, hK, List.zipWith_nil_left, Snowball.smoothWorth]
      ring
  | cons y ys ih =>
    intro ws hws s
    cases ws with
    | nil => cases hws
    | cons u ws =>
      obtain ⟨s1, h1, h2, h3, h4⟩ := fuzzy_look cv d eps L H C y w z hL hH hC hw u s .nil
      obtain ⟨s', h5, h6⟩ := ih ws (by simpa using hws) s1
      refine ⟨s', ?_, ?_⟩
      · show (fuzzySs realOps cv u d eps (snowLook 0 1 2 0 1 2 L H C w z y [1] [0, 2]) 0 s).bind _ = _
        rw [snowLook, h1]
        exact h5
      · rw [h6, h2, h3, h4, List.zipWith_cons_cons, Snowball.smoothWorth]
        ring

/-- The whole product. -/
theorem snow_fuzzy (cv : Nat → ℝ) (d eps L H C K w z : ℝ) (hL : cv 0 = L) (hH : cv 1 = H) (hC : cv 2 = C) (hK : cv 3 = K) (hw : 0 < w) (s0 sT : Script.Sample ℝ) (D : ℝ)
    (ys : List ℝ) (ws : List (Script.Sample ℝ)) (hn : ws.length = ys.length) (s : FSt ℝ) (hs : s.σ = fun _ => 0) : ∃ s',
      fuzzyEvents cv d eps ((snowCode L H C K w z ys D [1] [0, 2]).zip (s0 :: (ws ++ [sT]))) s = some s' ∧
      s'.σ 2 = Snowball.smoothWorth eps w ⟨L, H, C, K⟩ ⟨sT.spot, sT.numeraire, D⟩ (List.zipWith (fun y u => ⟨u.spot, u.numeraire, y⟩) ys ws) 1 := by
  obtain ⟨s', h1, h2⟩ := fuzzy_rest cv d eps L H C K w z hL hH hC hK hw sT D ys ws hn { s with σ := upd (upd s.σ 0 1) 1 0 }
  refine ⟨s', h1, ?_⟩
  rw [h2, hs]
  simp [upd]

end Dal

import Verif.Sim.TameProps
import Verif.Sim.BarrierProps
import Verif.Script.DcfProps

/-! # The snowball as a script: from the texts to the trees

The texts are those of `examples/snowball/snowball.cpp` lines 59–68.  `PeriodEnd` stands for the date of the event (C115). -/

namespace Dal
open Dal.Report Dal.Models

/-- `DCF(ACT365F, a, b)` as the example writes it. -/
def snowDcf (a b : Date.Date) : List Char := dcfText "ACT365F".toList (' ' :: DateText.toString' a) (' ' :: DateText.toString' b)

/-- The event at the start (line 60). -/
def snowFirst : List Char := "alive = 1 is_ki = 0".toList

/-- The tests of an event, up to the coupon (lines 63–64 and 67–68). -/
def snowHead : List Char := "if spot() < KI:0.001 then is_ki = 1 end\nif spot() > KO:0.001 then call pays alive * COUPON *".toList

/-- The event at each date of the schedule (lines 63–64). -/
def snowWatch (a b : Date.Date) : List Char := snowHead ++ ' ' :: (snowDcf a b ++ ' ' :: "alive = 0 end".toList)

/-- The middle of the event at maturity (lines 68–69). -/
def snowTail : List Char := "alive = 0  end\ncall pays alive * is_ki * (spot() - STRIKE) + alive * (1.000000 - is_ki) * COUPON *".toList

/-- The event at maturity (lines 67–69). -/
def snowLast (a b : Date.Date) : List Char := snowHead ++ ' ' :: (snowDcf a b ++ ' ' :: (snowTail ++ ' ' :: snowDcf a b))

/-- Names. -/
def aliveName : List Char := "alive".toList
/-- Names. -/
def kiName : List Char := "is_ki".toList
/-- Names. -/
def lowName : List Char := "KI".toList
/-- Names. -/
def highName : List Char := "KO".toList
/-- Names. -/
def couponName : List Char := "COUPON".toList

/-- The event at the start. -/
def snowStart {ν : Type} (x y : ν) : Script.Stmts ν ℝ := .cons (.assign ⟨x, false⟩ (.const 1)) (.cons (.assign ⟨y, false⟩ (.const 0)) .nil)

/-- The first test. -/
def snowLow {ν : Type} (y l : ν) (L w z : ℝ) (af : List Nat) : Script.Stmt ν ℝ :=
  .ite (.cmp .sup (.bin .sub (.constVar l L) .spot none) ⟨w, false, z, z⟩ {}) (.cons (.assign ⟨y, false⟩ (.const 1)) .nil) false .nil af {}

/-- The second test. -/
def snowHigh {ν : Type} (x p h c : ν) (H C d w z : ℝ) (af : List Nat) : Script.Stmt ν ℝ :=
  .ite (.cmp .sup (.bin .sub .spot (.constVar h H) none) ⟨w, false, z, z⟩ {})
    (.cons (.pays ⟨p, false⟩ (.bin .mul (.bin .mul (.var x none) (.constVar c C) none) (.const d) none)) (.cons (.assign ⟨x, false⟩ (.const 0)) .nil)) false .nil af {}

/-- The payment at maturity. -/
def snowPay {ν : Type} (x y p c k : ν) (C K d : ℝ) : Script.Stmt ν ℝ :=
  .pays ⟨p, false⟩ (.bin .add (.bin .mul (.bin .mul (.var x none) (.var y none) none) (.bin .sub .spot (.constVar k K) none) none)
    (.bin .mul (.bin .mul (.bin .mul (.var x none) (.bin .sub (.const 1) (.var y none) none) none) (.constVar c C) none) (.const d) none) none)

/-- The event at a date of the schedule. -/
def snowLook {ν : Type} (x y p l h c : ν) (L H C w z d : ℝ) (a1 a2 : List Nat) : Script.Stmts ν ℝ := .cons (snowLow y l L w z a1) (.cons (snowHigh x p h c H C d w z a2) .nil)

/-- The event at maturity. -/
def snowEnd {ν : Type} (x y p l h c k : ν) (L H C K w z d : ℝ) (a1 a2 : List Nat) : Script.Stmts ν ℝ :=
  .cons (snowLow y l L w z a1) (.cons (snowHigh x p h c H C d w z a2) (.cons (snowPay x y p c k C K d) .nil))

/-- How the texts are read: `KI`, `KO`, `COUPON` and `STRIKE` are constants, the other names are not; the literals are what they look like; `DCF` gives year fractions. -/
structure SnowEnv (v : Script.PEnv ℝ) (L H C K w : ℝ) : Prop where
  alive : v.cvs aliveName = none
  ki : v.cvs kiName = none
  call : v.cvs callName = none
  low : v.cvs lowName = some L
  high : v.cvs highName = some H
  coupon : v.cvs couponName = some C
  strike : v.cvs strikeName = some K
  zero : v.toD (.num ['0']) = some 0
  one : v.toD (.num ['1']) = some 1
  onePoint : v.toD (.num "1.000000".toList) = some 1
  width : v.toD (.num "0.001".toList) = some w
  dcf : ∃ sgn depth, DcfEnv v sgn depth fun r => (r : ℝ)

/-- The years between two dates, ACT/365F. -/
noncomputable def yearsBetween (a b : Date.Date) : ℝ := ((b.serial : ℝ) - a.serial) / 365

section parse
open Script
variable {v : Script.PEnv ℝ} {L H C K w : ℝ} (h : SnowEnv v L H C K w)
include h

private theorem snow_assign {s t : List Char} {c : ℝ} (hs : v.cvs s = none) (ht : v.toD (.num t) = some c) :
    GStmt v [.name s, .cmp .eq, .num t] (.assign ⟨s, false⟩ (.const c)) := by
  have h4 := GStmt.assign (s := s) (G1.up (.up (.up (G4.num ht))))
  rw [hs] at h4
  exact h4

private theorem snow_dcf {a b : Date.Date} (ha : Dcf.Readable a) (hb : Dcf.Readable b) : G4 v (tokens (snowDcf a b)) (.const (yearsBetween a b)) := by
  obtain ⟨sgn, depth, hd⟩ := h.dcf
  have key : ∀ d : Date.Date, Dcf.Readable d → (' ' :: DateText.toString' d).filter (fun c => c ≠ ' ') = DateText.toString' d := by
    intro d hr
    rw [List.filter_cons_of_neg (by simp), List.filter_eq_self]
    intro c hc
    rcases date_chars hr.1 c hc with hd | rfl
    · have : c ≠ ' ' := by rintro rfl; exact absurd hd (by decide)
      simpa using this
    · decide
  have h1 := dcf_value_365 sgn "ACT365F".toList _ _ a b (by intro c hc; revert c; decide) (by decide) ha hb (key a ha) (key b hb) hd
  have e : ((((b.serial : Rat) - a.serial) / 365 : Rat) : ℝ) = yearsBetween a b := by rw [yearsBetween]; push_cast; rfl
  rw [e] at h1
  exact h1

private theorem snow_low : GStmt v [.kw .if_, .kw .spot, .lp, .rp, .cmp .lt, .name lowName, .colon, .num "0.001".toList, .kw .then_, .name kiName, .cmp .eq, .num ['1'], .kw .end_]
    (snowLow kiName lowName L w v.zero []) := by
  have hc := GElem.cmp (c := .lt) (G1.up (.up (.up (G4.spot (v := v))))) (G1.up (.up (.up (G4.cvar h.low)))) (GWidth.colon h.width) (by simp)
  have hb := GStmts.cons (snow_assign h h.ki h.one) GStmts.nil
  have hi := GStmt.ifThen (.up (.up hc)) hb
  simpa [snowLow, cmpMeaning] using hi

private theorem snow_high {a b : Date.Date} (ha : Dcf.Readable a) (hb : Dcf.Readable b) :
    GStmt v (([.kw .if_, .kw .spot, .lp, .rp, .cmp .gt, .name highName, .colon, .num "0.001".toList, .kw .then_, .name callName, .kw .pays, .name aliveName, .times, .name couponName, .times] ++
      tokens (snowDcf a b)) ++ [.name aliveName, .cmp .eq, .num ['0'], .kw .end_]) (snowHigh aliveName callName highName couponName H C (yearsBetween a b) w v.zero []) := by
  have hc := GElem.cmp (c := .gt) (G1.up (.up (.up (G4.spot (v := v))))) (G1.up (.up (.up (G4.cvar h.high)))) (GWidth.colon h.width) (by simp)
  have he := G2.mul (G2.mul (.up (.up (G4.var h.alive))) (.up (G4.cvar h.coupon))) (.up (snow_dcf h ha hb))
  have hp := GStmt.pays (s := callName) (G1.up he)
  rw [h.call] at hp
  have hbody := GStmts.cons hp (GStmts.cons (snow_assign h h.alive h.zero) GStmts.nil)
  have hi := GStmt.ifThen (.up (.up hc)) hbody
  simpa [snowHigh, cmpMeaning] using hi

private theorem snow_pay {a b : Date.Date} (ha : Dcf.Readable a) (hb : Dcf.Readable b) :
    GStmt v ([.name callName, .kw .pays, .name aliveName, .times, .name kiName, .times, .lp, .kw .spot, .lp, .rp, .minus, .name strikeName, .rp, .plus, .name aliveName, .times, .lp,
      .num "1.000000".toList, .minus, .name kiName, .rp, .times, .name couponName, .times] ++ tokens (snowDcf a b))
      (snowPay aliveName kiName callName couponName strikeName C K (yearsBetween a b)) := by
  have h1 := G2.mul (G2.mul (.up (.up (G4.var h.alive))) (.up (G4.var h.ki))) (.up (G4.paren (G1.sub (.up (.up (.up (G4.spot (v := v))))) (.up (.up (G4.cvar h.strike))))))
  have h2 := G2.mul (.up (.up (G4.var h.alive))) (.up (G4.paren (G1.sub (.up (.up (.up (G4.num h.onePoint)))) (.up (.up (G4.var h.ki))))))
  have h3 := G2.mul (G2.mul h2 (.up (G4.cvar h.coupon))) (.up (snow_dcf h ha hb))
  have hp := GStmt.pays (s := callName) (G1.add (G1.up h1) h3)
  rw [h.call] at hp
  simpa [snowPay] using hp

theorem snow_start_parsed : ∃ N, ∀ n, N ≤ n → pEvent v n (tokens snowFirst) = .ok (snowStart aliveName kiName) := by
  apply C27_event
  have ht : tokens snowFirst = [.name aliveName, .cmp .eq, .num ['1']] ++ ([.name kiName, .cmp .eq, .num ['0']] ++ []) := by decide +kernel
  rw [ht]
  exact GStmts.cons (snow_assign h h.alive h.one) (GStmts.cons (snow_assign h h.ki h.zero) GStmts.nil)

omit h in
private theorem head_tokens : tokens snowHead = [.kw .if_, .kw .spot, .lp, .rp, .cmp .lt, .name lowName, .colon, .num "0.001".toList, .kw .then_, .name kiName, .cmp .eq, .num ['1'], .kw .end_] ++
    [.kw .if_, .kw .spot, .lp, .rp, .cmp .gt, .name highName, .colon, .num "0.001".toList, .kw .then_, .name callName, .kw .pays, .name aliveName, .times, .name couponName, .times] := by
  decide +kernel

theorem snow_watch_parsed {a b : Date.Date} (ha : Dcf.Readable a) (hb : Dcf.Readable b) : ∃ N, ∀ n, N ≤ n → pEvent v n (tokens (snowWatch a b)) =
    .ok (snowLook aliveName kiName callName lowName highName couponName L H C w v.zero (yearsBetween a b) [] []) := by
  apply C27_event
  have h2 : tokens "alive = 0 end".toList = [.name aliveName, .cmp .eq, .num ['0'], .kw .end_] := by decide +kernel
  rw [snowWatch, tokens_append (by decide) (by decide), tokens_blank, tokens_append (by decide) (by decide), tokens_blank, head_tokens, h2]
  have := GStmts.cons (snow_low h) (GStmts.cons (snow_high h ha hb) GStmts.nil)
  simpa [snowLook] using this

theorem snow_last_parsed {a b : Date.Date} (ha : Dcf.Readable a) (hb : Dcf.Readable b) : ∃ N, ∀ n, N ≤ n → pEvent v n (tokens (snowLast a b)) =
    .ok (snowEnd aliveName kiName callName lowName highName couponName strikeName L H C K w v.zero (yearsBetween a b) [] []) := by
  apply C27_event
  have h2 : tokens snowTail = [.name aliveName, .cmp .eq, .num ['0'], .kw .end_] ++ [.name callName, .kw .pays, .name aliveName, .times, .name kiName, .times, .lp, .kw .spot, .lp, .rp, .minus,
      .name strikeName, .rp, .plus, .name aliveName, .times, .lp, .num "1.000000".toList, .minus, .name kiName, .rp, .times, .name couponName, .times] := by decide +kernel
  rw [snowLast, tokens_append (by decide) (by decide), tokens_blank, tokens_append (by decide) (by decide), tokens_blank, tokens_append (by decide) (by decide), tokens_blank, head_tokens, h2]
  have := GStmts.cons (snow_low h) (GStmts.cons (snow_high h ha hb) (GStmts.cons (snow_pay h ha hb) GStmts.nil))
  simpa [snowEnd] using this

end parse

end Dal

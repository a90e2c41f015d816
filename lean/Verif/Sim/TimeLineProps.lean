import Verif.Sim.TimeLineModel
import Mathlib.Data.List.Chain
import Mathlib.Data.List.Sort
import Mathlib.Tactic.Ring
import Mathlib.Tactic.FieldSimp
import Mathlib.Tactic.Linarith

/-!
# C63: time lines of simulation models

Specification: a line is fine for a step `M` when every element is smaller than the next by at most `M`; the fills of a path are compared with the positions
of the product dates on the line.
-/

namespace Dal
open Dal.TimeLine

section fill
variable {K : Type*} [Field K] [LinearOrder K] [IsStrictOrderedRing K] [FloorRing K]

/-- Strictly increasing with no gap above `M`. -/
def Fine (M : K) (l : List K) : Prop := l.IsChain fun a b => a < b ∧ b - a ≤ M

private theorem steps_fine (sp minDx next M : K) (hsp : 0 < sp) (hm : 0 ≤ minDx) (hM : sp ≤ M) (hor : minDx < sp ∨ sp + minDx ≤ M) :
    ∀ (j fuel : Nat) (t : K), t = next - j * sp → j ≤ fuel →
    ∃ l, steps sp (next - minDx) fuel t = some l ∧ Fine M ((t - sp) :: (l ++ [next])) := by
  intro j
  induction j with
  | zero =>
    intro fuel t ht hf
    have ht' : t = next := by rw [ht]; simp
    refine ⟨[], ?_, ?_⟩
    · have hn : ¬ t < next - minDx := by rw [ht']; linarith
      cases fuel with
      | zero => rw [steps, if_neg hn]
      | succ f => rw [steps, if_neg hn]
    · simp only [Fine, List.nil_append, List.isChain_pair]
      rw [ht']
      constructor <;> linarith
  | succ j ih =>
    intro fuel t ht hf
    obtain ⟨f, rfl⟩ : ∃ f, fuel = f + 1 := ⟨fuel - 1, by omega⟩
    by_cases hlt : t < next - minDx
    · obtain ⟨l, h1, h2⟩ := ih f (t + sp) (by rw [ht]; push_cast; ring) (by omega)
      refine ⟨t :: l, by rw [steps, if_pos hlt, h1]; rfl, ?_⟩
      rw [add_sub_cancel_right] at h2
      simp only [Fine, List.cons_append, List.isChain_cons_cons]
      refine ⟨⟨by linarith, by linarith⟩, h2⟩
    · refine ⟨[], by rw [steps, if_neg hlt], ?_⟩
      have hj : (0 : K) ≤ (j : K) := Nat.cast_nonneg j
      have hjs : 0 ≤ (j : K) * sp := mul_nonneg hj hsp.le
      push_cast at ht
      have hb : ¬ minDx < sp := by
        intro hb
        apply hlt
        rw [ht, add_mul, one_mul]
        linarith
      have hM2 := hor.resolve_left hb
      rw [not_lt] at hlt
      simp only [Fine, List.nil_append, List.isChain_pair]
      rw [ht, add_mul, one_mul]
      rw [ht, add_mul, one_mul] at hlt
      constructor <;> linarith

private theorem fillFrom_fine (eps maxDx minDx M : K) (fuel : Nat) (h1 : 0 < maxDx) (hm : 0 ≤ minDx) (he : 0 ≤ eps) (he1 : eps < 1)
    (hM : maxDx * (1 + eps) ≤ M) (hor : 2 * minDx ≤ maxDx ∨ maxDx * (1 + eps) + minDx ≤ M) (hfuel : 2147483648 ≤ fuel) :
    ∀ (rest : List K) (cur : K), (cur :: rest).IsChain (· < ·) → (cur :: rest).IsChain (fun a b => b - a < maxDx * 2147483647) →
    ∃ l, fillFrom eps maxDx minDx fuel cur rest = some l ∧ Fine M (cur :: l) ∧ rest.Sublist l ∧ (cur :: l).getLast? = (cur :: rest).getLast? := by
  intro rest
  induction rest with
  | nil => exact fun cur _ _ => ⟨[], rfl, List.isChain_singleton _, List.Sublist.refl _, rfl⟩
  | cons next rest ih =>
    intro cur hc hb
    rw [List.isChain_cons_cons] at hc hb
    obtain ⟨r, r1, r2, r3, r4⟩ := ih next hc.2 hb.2
    have key : ∃ pts, (if maxDx < next - cur then
        (toInt ((next - cur) / maxDx - eps)).bind fun i =>
          if i = 2147483647 ∨ i + 1 = 0 then none
          else steps ((next - cur) / ((i + 1 : Int) : K)) (next - minDx) fuel (cur + (next - cur) / ((i + 1 : Int) : K))
      else some []) = some pts ∧ Fine M (cur :: (pts ++ [next])) := by
      by_cases hgap : maxDx < next - cur
      · rw [if_pos hgap]
        obtain ⟨q, hq⟩ : ∃ q, q = (next - cur) / maxDx := ⟨_, rfl⟩
        have hd : next - cur = q * maxDx := by rw [hq]; field_simp
        have hq1 : 1 < q := by rw [hq, lt_div_iff₀ h1]; linarith
        have hq2 : q < 2147483647 := by rw [hq, div_lt_iff₀ h1]; linarith [hb.1]
        obtain ⟨i, hi⟩ : ∃ i, i = ⌊q - eps⌋ := ⟨_, rfl⟩
        have hi0 : 0 ≤ i := by rw [hi]; exact Int.floor_nonneg.2 (by linarith)
        have hi1 : (i : K) ≤ q - eps := by rw [hi]; exact Int.floor_le _
        have hi2 : q - eps < i + 1 := by rw [hi]; exact Int.lt_floor_add_one _
        have hi3 : i < 2147483647 := by
          have : (i : K) < ((2147483647 : Int) : K) := by push_cast; linarith
          exact_mod_cast this
        have hto : toInt ((next - cur) / maxDx - eps) = some i := by
          unfold toInt
          rw [← hq]
          dsimp only
          rw [if_pos (show (0 : K) ≤ q - eps by linarith), ← hi, if_pos (by omega)]
        rw [hto, Option.bind_some, if_neg (by omega)]
        obtain ⟨k, hk⟩ : ∃ k : Nat, (k : Int) = i + 1 := ⟨(i + 1).toNat, by omega⟩
        rw [← hk, Int.cast_natCast]
        have hkK : (k : K) = i + 1 := by
          have : ((k : Int) : K) = ((i + 1 : Int) : K) := by rw [hk]
          push_cast at this
          exact this
        have hk1 : (1 : K) ≤ k := by
          rw [hkK]
          have : (0 : K) ≤ i := by exact_mod_cast hi0
          linarith
        have hk0 : (0 : K) < k := by linarith
        obtain ⟨sp, hspd⟩ : ∃ sp, sp = (next - cur) / (k : K) := ⟨_, rfl⟩
        have hks : (k : K) * sp = next - cur := by rw [hspd]; field_simp
        have hsp : 0 < sp := by rw [hspd]; exact div_pos (by linarith) hk0
        have hle : sp ≤ maxDx * (1 + eps) := by
          rw [hspd, div_le_iff₀ hk0, hd]
          have a1 : q ≤ (1 + eps) * k := by
            have : eps ≤ eps * k := le_mul_of_one_le_right he hk1
            rw [add_mul, one_mul]
            linarith
          calc q * maxDx ≤ (1 + eps) * k * maxDx := mul_le_mul_of_nonneg_right a1 h1.le
            _ = maxDx * (1 + eps) * k := by ring
        have hor' : minDx < sp ∨ sp + minDx ≤ M := by
          rcases hor with h | h
          · left
            rw [hspd, lt_div_iff₀ hk0, hd]
            have a1 : (k : K) < 2 * q := by linarith
            have a2 : 2 * minDx * k ≤ maxDx * k := mul_le_mul_of_nonneg_right h hk0.le
            have a3 : maxDx * k < maxDx * (2 * q) := mul_lt_mul_of_pos_left a1 h1
            linarith
          · exact Or.inr (by linarith)
        obtain ⟨l, l1, l2⟩ := steps_fine sp minDx next M hsp hm (hle.trans hM) hor' (k - 1) fuel (cur + sp)
          (by
            have : ((k - 1 : Nat) : K) = k - 1 := by
              rw [Nat.cast_sub (by omega)]; simp
            rw [this, sub_mul, hks]
            ring) (by omega)
        rw [← hspd]
        refine ⟨l, l1, ?_⟩
        rwa [add_sub_cancel_right] at l2
      · rw [if_neg hgap]
        refine ⟨[], rfl, ?_⟩
        rw [not_lt] at hgap
        simp only [Fine, List.nil_append, List.isChain_pair]
        refine ⟨hc.1, hgap.trans (le_trans ?_ hM)⟩
        exact le_mul_of_one_le_right h1.le (by linarith)
    obtain ⟨pts, p1, p2⟩ := key
    refine ⟨pts ++ next :: r, ?_, ?_, ?_, ?_⟩
    · rw [fillFrom, p1, Option.bind_some, r1]
      rfl
    · have : cur :: (pts ++ next :: r) = (cur :: pts) ++ next :: r := rfl
      unfold Fine at p2 r2 ⊢
      rw [this, List.isChain_split]
      exact ⟨by simpa using p2, r2⟩
    · exact (List.Sublist.cons_cons next r3).trans (List.sublist_append_right _ _)
    · have : cur :: (pts ++ next :: r) = (cur :: pts) ++ next :: r := rfl
      rw [this, List.getLast?_append_of_ne_nil _ (by simp), r4, List.getLast?_cons_cons]

private theorem union_one (m a : K) (hm : 0 ≤ m) : ∀ s : List K, s.IsChain (· < ·) →
    ∃ A B, s = A ++ B ∧ (∀ x ∈ A, x < a - m) ∧ (∀ x ∈ B, a - m ≤ x) ∧
      setUnion m s [a] = if ∃ x ∈ B, x ≤ a + m then A ++ B else A ++ a :: B := by
  intro s
  induction s with
  | nil => exact fun _ => ⟨[], [], rfl, by simp, by simp, by simp [setUnion]⟩
  | cons x s ih =>
    intro hc
    have hp : ∀ y ∈ s, x < y := (List.pairwise_cons.1 (List.isChain_iff_pairwise.1 hc)).1
    by_cases h1 : x < a - m
    · obtain ⟨A, B, e, hA, hB, hu⟩ := ih hc.tail
      refine ⟨x :: A, B, by rw [e]; rfl, ?_, hB, ?_⟩
      · intro y hy
        rcases List.mem_cons.1 hy with rfl | hy
        · exact h1
        · exact hA y hy
      · rw [setUnion, if_pos h1, hu]
        split <;> rfl
    · refine ⟨[], x :: s, rfl, by simp, ?_, ?_⟩
      · intro y hy
        rw [not_lt] at h1
        rcases List.mem_cons.1 hy with rfl | hy
        · exact h1
        · exact h1.trans (hp y hy).le
      · rw [setUnion, if_neg h1]
        by_cases h2 : a < x - m
        · rw [if_pos h2, if_neg]
          · simp [setUnion]
          · rintro ⟨y, hy, hle⟩
            rcases List.mem_cons.1 hy with rfl | hy
            · linarith
            · have := hp y hy
              linarith
        · rw [if_neg h2, if_pos ⟨x, List.mem_cons_self, by rw [not_lt] at h2; linarith⟩]
          cases s <;> simp [setUnion]

/-- C63, the filling of lines: from a strictly increasing sequence, `FillData` makes a strictly increasing line that has every element of the sequence, the
same ends, and no gap above the maximum step, but for the relative tolerance `eps`, when the minimum step is at most half of it; in any case no gap above the
sum of the two. -/
theorem C63_fill (eps maxDx minDx : K) (fuel : Nat) (s : List K) (hs : s ≠ []) (h1 : 0 < maxDx) (hm : 0 ≤ minDx) (he : 0 ≤ eps) (he1 : eps < 1)
    (hfuel : 2147483648 ≤ fuel) (hinc : s.IsChain (· < ·)) (hgap : s.IsChain (fun a b => b - a < maxDx * 2147483647)) :
    ∃ l, fillData eps maxDx minDx fuel s [] = some l ∧ s.Sublist l ∧ l.head? = s.head? ∧ l.getLast? = s.getLast? ∧
      Fine (maxDx * (1 + eps) + minDx) l ∧ (2 * minDx ≤ maxDx → Fine (maxDx * (1 + eps)) l) := by
  obtain ⟨x, rest, rfl⟩ := List.exists_cons_of_ne_nil hs
  obtain ⟨l, l1, l2, l3, l4⟩ := fillFrom_fine eps maxDx minDx (maxDx * (1 + eps) + minDx) fuel h1 hm he he1 (by linarith) (Or.inr le_rfl) hfuel rest x
    hinc hgap
  refine ⟨x :: l, ?_, List.Sublist.cons_cons x l3, rfl, l4, l2, fun h => ?_⟩
  · unfold fillData
    simp only [ne_eq, not_true_eq_false, if_false]
    rw [l1]
    rfl
  · obtain ⟨l', l1', l2', _⟩ := fillFrom_fine eps maxDx minDx (maxDx * (1 + eps)) fuel h1 hm he he1 le_rfl (Or.inl h) hfuel rest x hinc hgap
    rw [l1] at l1'
    cases l1'
    exact l2'

/-- C63, the filling of lines with one more point: it is on the line, or an element of the sequence no further away than the minimum step. -/
theorem C63_fill_one_more (eps maxDx minDx a : K) (fuel : Nat) (s : List K) (h1 : 0 < maxDx) (hm : 0 ≤ minDx) (he : 0 ≤ eps) (he1 : eps < 1)
    (hfuel : 2147483648 ≤ fuel) (hinc : s.IsChain (· < ·)) (hgap : ∀ x ∈ a :: s, ∀ y ∈ a :: s, y - x < maxDx * 2147483647) :
    ∃ l, fillData eps maxDx minDx fuel s [a] = some l ∧ s.Sublist l ∧ (a ∈ l ∨ ∃ x ∈ s, a - minDx ≤ x ∧ x ≤ a + minDx) ∧
      Fine (maxDx * (1 + eps) + minDx) l ∧ (2 * minDx ≤ maxDx → Fine (maxDx * (1 + eps)) l) := by
  obtain ⟨A, B, e, hA, hB, hu⟩ := union_one minDx a hm s hinc
  obtain ⟨u, hu'⟩ : ∃ u, u = setUnion minDx s [a] := ⟨_, rfl⟩
  have hp := List.isChain_iff_pairwise.1 hinc
  have hfacts : u ≠ [] ∧ u.IsChain (· < ·) ∧ s.Sublist u ∧ (∀ x ∈ u, x ∈ a :: s) ∧ (a ∈ u ∨ ∃ x ∈ s, a - minDx ≤ x ∧ x ≤ a + minDx) := by
    rw [hu', hu]
    by_cases hx : ∃ x ∈ B, x ≤ a + minDx
    · rw [if_pos hx, ← e]
      obtain ⟨x, hxB, hxa⟩ := hx
      have hxs : x ∈ s := by rw [e]; exact List.mem_append_right _ hxB
      exact ⟨List.ne_nil_of_mem hxs, hinc, List.Sublist.refl _, fun y hy => List.mem_cons_of_mem _ hy, Or.inr ⟨x, hxs, hB x hxB, hxa⟩⟩
    · rw [if_neg hx]
      push Not at hx
      refine ⟨by simp, ?_, ?_, ?_, Or.inl (by simp)⟩
      · rw [List.isChain_iff_pairwise, List.pairwise_append]
        rw [e, List.pairwise_append] at hp
        refine ⟨hp.1, List.pairwise_cons.2 ⟨fun y hy => by linarith [hx y hy], hp.2.1⟩, fun x hxA y hy => ?_⟩
        rcases List.mem_cons.1 hy with rfl | hy
        · linarith [hA x hxA]
        · exact hp.2.2 x hxA y hy
      · rw [e]
        exact List.Sublist.append (List.Sublist.refl _) (List.sublist_cons_self _ _)
      · intro x hx
        rw [e]
        simp only [List.mem_append, List.mem_cons] at hx ⊢
        tauto
  obtain ⟨f1, f2, f3, f4, f5⟩ := hfacts
  have hg : u.IsChain (fun a b => b - a < maxDx * 2147483647) := by
    apply List.Pairwise.isChain
    exact List.pairwise_of_forall_mem_list (fun x hx y hy => hgap x (f4 x hx) y (f4 y hy))
  obtain ⟨l, l1, l2, _, _, l5, l6⟩ := C63_fill eps maxDx minDx fuel u f1 h1 hm he he1 hfuel f2 hg
  refine ⟨l, ?_, f3.trans l2, ?_, l5, l6⟩
  · rw [← l1]
    unfold fillData
    rw [if_pos (by simp), if_neg (by simp), ← hu']
  · rcases f5 with h | h
    · exact Or.inl (l2.subset h)
    · exact Or.inr h

theorem onLine_iff (p : List K) (hp : p.IsChain (· < ·)) (t : K) : onLine p t = true ↔ t ∈ p := by
  have hpw := List.isChain_iff_pairwise.1 hp
  clear hp
  induction p with
  | nil => simp [onLine]
  | cons x p ih =>
    rw [List.pairwise_cons] at hpw
    have ih := ih hpw.2
    by_cases hx : x < t
    · have e : onLine (x :: p) t = onLine p t := by
        unfold onLine
        rw [List.find?_cons_of_neg (by simpa using hx)]
      rw [e, List.mem_cons]
      exact ih.trans ⟨Or.inr, fun h => h.resolve_left (ne_of_gt hx)⟩
    · have e : onLine (x :: p) t = decide (¬ t < x) := by
        unfold onLine
        rw [List.find?_cons_of_pos (by simpa using hx)]
      rw [not_lt] at hx
      rw [e, decide_eq_true_iff, not_lt, List.mem_cons]
      constructor
      · intro h
        exact Or.inl (le_antisymm hx h)
      · rintro (h | h)
        · exact h.ge
        · exact absurd (hpw.1 t h) (not_lt.2 hx)

private theorem filter_sub (p l : List K) (hl : l.IsChain (· < ·)) (hs : p.Sublist l) : l.filter (fun t => decide (t ∈ p)) = p := by
  have hlw := List.isChain_iff_pairwise.1 hl
  refine List.Perm.eq_of_pairwise (fun a b _ _ h1 h2 => absurd h1 (not_lt.2 h2.le)) (hlw.sublist List.filter_sublist) (hlw.sublist hs) ?_
  refine (List.perm_ext_iff_of_nodup ?_ ?_).2 ?_
  · exact (hlw.imp ne_of_lt).sublist List.filter_sublist
  · exact (hlw.imp ne_of_lt).sublist hs
  · intro a
    rw [List.mem_filter, decide_eq_true_iff]
    exact ⟨fun h => h.2, fun h => ⟨hs.subset h, h⟩⟩

/-- C63, Dupire: for product dates that begin today or later than the tolerance from today, the time line has today and every product date, is strictly
increasing, and has no gap above the maximum step but for the relative tolerance `eps`; and the steps that are in common with the product are the product
dates. -/
theorem C63_dupire_line (eps maxDt halfDay : K) (fuel : Nat) (p : List K) (h1 : 0 < maxDt) (hm : 0 ≤ halfDay) (hh : 2 * halfDay ≤ maxDt) (he : 0 ≤ eps)
    (he1 : eps < 1) (hfuel : 2147483648 ≤ fuel) (hp : p.IsChain (· < ·)) (h0 : ∀ t ∈ p, t = 0 ∨ halfDay < t)
    (hlast : ∀ t ∈ p, t < maxDt * 2147483647) :
    ∃ l f, dupireAllocate eps maxDt halfDay fuel p = some (l, f) ∧ l.head? = some 0 ∧ p.Sublist l ∧ Fine (maxDt * (1 + eps)) l ∧
      f = l.map (fun t => decide (t ∈ p)) ∧ l.filter (fun t => decide (t ∈ p)) = p := by
  have hnn : ∀ x ∈ (0 : K) :: p, 0 ≤ x := by
    intro x hx
    rcases List.mem_cons.1 hx with rfl | hx
    · exact le_rfl
    · rcases h0 x hx with rfl | h
      · exact le_rfl
      · linarith
  have hub : ∀ x ∈ (0 : K) :: p, x < maxDt * 2147483647 := by
    intro x hx
    rcases List.mem_cons.1 hx with rfl | hx
    · exact mul_pos h1 (by norm_num)
    · exact hlast x hx
  obtain ⟨l, l1, l2, l3, _, l5⟩ := C63_fill_one_more eps maxDt halfDay 0 fuel p h1 hm he he1 hfuel hp
    (fun x hx y hy => by linarith [hnn x hx, hub y hy])
  have hl0 : (0 : K) ∈ l := by
    rcases l3 with h | ⟨x, hx, _, hle⟩
    · exact h
    · rcases h0 x hx with rfl | h
      · exact l2.subset hx
      · linarith
  have hchain : l.IsChain (· < ·) := (l5 hh).imp fun _ _ h => h.1
  refine ⟨l, l.map (onLine p), by unfold dupireAllocate; rw [l1]; rfl, ?_, l2, l5 hh, ?_, filter_sub p l hchain l2⟩
  · -- the first element of the line is one of today and the product dates
    have hhead : ∀ x, l.head? = some x → x ∈ (0 : K) :: p := by
      intro x hx
      unfold fillData at l1
      rw [if_pos (by simp)] at l1
      obtain ⟨A, B, e, hA, hB, hu⟩ := union_one halfDay 0 hm p hp
      have hmem : ∀ y ∈ setUnion halfDay p [0], y ∈ (0 : K) :: p := by
        intro y hy
        rw [hu] at hy
        rw [e]
        split at hy
        · exact List.mem_cons_of_mem _ hy
        · simp only [List.mem_append, List.mem_cons] at hy ⊢
          tauto
      cases hsu : setUnion halfDay p [0] with
      | nil => rw [hsu] at l1; cases l1
      | cons y rest =>
        rw [hsu] at l1
        dsimp only at l1
        cases hf : fillFrom eps maxDt halfDay fuel y rest with
        | none => rw [hf] at l1; cases l1
        | some r =>
          rw [hf] at l1
          cases l1
          cases hx
          exact hmem x (by rw [hsu]; exact List.mem_cons_self)
    cases l with
    | nil => cases hl0
    | cons x l =>
      have hx := hnn x (hhead x rfl)
      rcases List.mem_cons.1 hl0 with h | h
      · rw [h]; rfl
      · have := (List.pairwise_cons.1 (List.isChain_iff_pairwise.1 hchain)).1 0 h
        linarith
  · apply List.map_congr_left
    intro t _
    have := onLine_iff p hp t
    by_cases h : t ∈ p
    · rw [this.2 h, decide_eq_true h]
    · rw [decide_eq_false h, ← Bool.not_eq_true, this]
      exact h

/-- C63, Black–Scholes: the time line has today and every product date and is strictly increasing, and the steps that are in common with the product are the
product dates. -/
theorem C63_bs_line (p : List K) (hne : p ≠ []) (hp : p.IsChain (· < ·)) (h0 : ∀ t ∈ p, 0 ≤ t) :
    ∃ l f, bsAllocate p = some (l, f) ∧ l.head? = some 0 ∧ p.Sublist l ∧ l.IsChain (· < ·) ∧ f = l.map (fun t => decide (t ∈ p)) ∧
      l.filter (fun t => decide (t ∈ p)) = p ∧ ∀ t ∈ l, t = 0 ∨ t ∈ p := by
  obtain ⟨t, p, rfl⟩ := List.exists_cons_of_ne_nil hne
  have hpw := List.pairwise_cons.1 (List.isChain_iff_pairwise.1 hp)
  have hpos : ∀ x ∈ p, 0 < x := fun x hx => lt_of_le_of_lt (h0 t List.mem_cons_self) (hpw.1 x hx)
  have hfp : p.filter (fun x => decide (0 < x)) = p := List.filter_eq_self.2 fun x hx => decide_eq_true (hpos x hx)
  have hch : (0 :: (t :: p).filter (fun x => decide (0 < x))).IsChain (· < ·) := by
    rw [List.isChain_iff_pairwise, List.pairwise_cons]
    refine ⟨fun x hx => ?_, (List.isChain_iff_pairwise.1 hp).sublist List.filter_sublist⟩
    simpa using (List.mem_filter.1 hx).2
  have hsub : (t :: p).Sublist (0 :: (t :: p).filter (fun x => decide (0 < x))) := by
    rcases (h0 t List.mem_cons_self).eq_or_lt with h | h
    · rw [List.filter_cons_of_neg (by simp [← h]), hfp, h]
    · rw [List.filter_cons_of_pos (by simpa using h), hfp]
      exact List.sublist_cons_self _ _
  refine ⟨_, _, rfl, rfl, hsub, hch, ?_, filter_sub _ _ hch hsub, ?_⟩
  · rw [List.map_cons]
    congr 1
    · by_cases h : t = 0
      · rw [decide_eq_true h, decide_eq_true]
        rw [h]
        exact List.mem_cons_self
      · rw [decide_eq_false h, decide_eq_false]
        intro hm
        rcases List.mem_cons.1 hm with hm | hm
        · exact h hm.symm
        · exact absurd (hpos 0 hm) (lt_irrefl _)
    · apply List.map_congr_left
      intro x hx
      rw [decide_eq_true]
      exact (List.mem_filter.1 hx).1
  · intro x hx
    rcases List.mem_cons.1 hx with h | h
    · exact Or.inl h
    · exact Or.inr (List.mem_filter.1 h).1

private theorem path_spec {S : Type*} (step : Nat → S → S) (s0 : S) (ln p : List K) (size : Nat) : ∀ (rest done : List K) (idx : Nat),
    ln = done ++ rest → idx + (rest.filter (fun t => decide (t ∈ p))).length ≤ size →
    ∃ w, pathFrom step size (rest.map (fun t => decide (t ∈ p))) done.length idx (stateAt step s0 done.length) = some w ∧
      w.map (·.idx) = List.range' idx (rest.filter (fun t => decide (t ∈ p))).length ∧
      w.map (fun x => ln[x.pos]?) = (rest.filter (fun t => decide (t ∈ p))).map some ∧ ∀ x ∈ w, x.state = stateAt step s0 x.pos := by
  intro rest
  induction rest with
  | nil => exact fun done idx _ _ => ⟨[], rfl, rfl, rfl, by simp⟩
  | cons t rest ih =>
    intro done idx hl hsz
    have ih' := ih (done ++ [t])
    rw [List.length_append, List.length_singleton] at ih'
    by_cases ht : t ∈ p
    · rw [List.filter_cons_of_pos (by simpa using ht), List.length_cons] at hsz
      obtain ⟨w, w1, w2, w3, w4⟩ := ih' (idx + 1) (by rw [hl]; simp) (by omega)
      refine ⟨⟨idx, done.length, stateAt step s0 done.length⟩ :: w, ?_, ?_, ?_, ?_⟩
      · rw [List.map_cons, decide_eq_true ht, pathFrom, if_pos rfl, if_pos (by omega)]
        rw [show step done.length (stateAt step s0 done.length) = stateAt step s0 (done.length + 1) from rfl, w1]
        rfl
      · rw [List.map_cons, w2, List.filter_cons_of_pos (by simpa using ht), List.length_cons, List.range'_succ]
      · rw [List.map_cons, w3, List.filter_cons_of_pos (by simpa using ht), List.map_cons]
        congr 1
        rw [hl]
        simp
      · intro x hx
        rcases List.mem_cons.1 hx with rfl | hx
        · rfl
        · exact w4 x hx
    · rw [List.filter_cons_of_neg (by simpa using ht)] at hsz ⊢
      obtain ⟨w, w1, w2, w3, w4⟩ := ih' idx (by rw [hl]; simp) hsz
      refine ⟨w, ?_, w2, w3, w4⟩
      rw [List.map_cons, decide_eq_false ht, pathFrom, if_neg (by simp)]
      exact w1

/-- C63, the paths: when the flags mark the product dates on the line, every entry of the path is filled exactly once, in order, with the state that the
simulation has reached at its product date. -/
theorem C63_paths {S : Type*} (step : Nat → S → S) (s0 : S) (ln p : List K) (hf : ln.filter (fun t => decide (t ∈ p)) = p) :
    ∃ w, generatePath step p.length (ln.map (fun t => decide (t ∈ p))) s0 = some w ∧ w.map (·.idx) = List.range p.length ∧
      w.map (fun x => ln[x.pos]?) = p.map some ∧ ∀ x ∈ w, x.state = stateAt step s0 x.pos := by
  obtain ⟨w, w1, w2, w3, w4⟩ := path_spec step s0 ln p p.length ln [] 0 rfl (by rw [hf]; omega)
  rw [hf] at w2 w3
  exact ⟨w, w1, by rw [w2, List.range_eq_range'], w3, w4⟩

/-- C63 fails for a first product date within the tolerance of today: the Dupire time line then has no today, and the path begins at that date with the spot of
today. -/
theorem C63_dupire_today_violated {S : Type*} (eps maxDt halfDay t : K) (fuel : Nat) (h0 : 0 < t) (h1 : t ≤ halfDay) (step : Nat → S → S) (s0 : S) :
    ∃ l f, dupireAllocate eps maxDt halfDay fuel [t] = some (l, f) ∧ (0 : K) ∉ l ∧ generatePath step 1 f s0 = some [⟨0, 0, s0⟩] := by
  refine ⟨[t], [true], ?_, by simp [h0.ne], rfl⟩
  unfold dupireAllocate fillData
  rw [if_pos (by simp)]
  simp only [setUnion]
  rw [if_neg (by linarith), if_neg (by linarith)]
  simp [fillFrom, onLine]

/-- C63 fails for steps that are above the maximum by a relative `eps` or less: nothing is added. -/
theorem C63_gap_violated (eps maxDt minDx q : K) (fuel : Nat) (h1 : 0 < maxDt) (hm : 0 ≤ minDx) (hq : 1 < q) (hq1 : q < 1 + eps) (he1 : eps < 1) :
    fillData eps maxDt minDx fuel [0, q * maxDt] [] = some [0, q * maxDt] ∧ maxDt < q * maxDt - 0 := by
  have hgap : maxDt < q * maxDt - 0 := by
    rw [sub_zero]
    exact lt_mul_of_one_lt_left h1 hq
  refine ⟨?_, hgap⟩
  have hto : toInt ((q * maxDt - 0) / maxDt - eps) = some 0 := by
    have e : (q * maxDt - 0) / maxDt - eps = q - eps := by
      rw [sub_zero, mul_div_assoc, div_self h1.ne', mul_one]
    rw [e]
    unfold toInt
    dsimp only
    rw [if_pos (show (0 : K) ≤ q - eps by linarith), show ⌊q - eps⌋ = 0 from Int.floor_eq_iff.2 ⟨by push_cast; linarith, by push_cast; linarith⟩]
    rfl
  unfold fillData
  rw [if_neg (by simp)]
  simp only [fillFrom]
  rw [if_pos hgap, hto, Option.bind_some, if_neg (by decide)]
  have hs : steps ((q * maxDt - 0) / (((0 : Int) + 1 : Int) : K)) (q * maxDt - minDx) fuel (0 + (q * maxDt - 0) / (((0 : Int) + 1 : Int) : K)) = some [] := by
    have : ¬ (0 + (q * maxDt - 0) / (((0 : Int) + 1 : Int) : K)) < q * maxDt - minDx := by
      push_cast
      simp only [zero_add, div_one, sub_zero]
      linarith
    cases fuel with
    | zero => rw [steps, if_neg this]
    | succ f => rw [steps, if_neg this]
  rw [hs]
  rfl

end fill

private theorem getD_at (l : List ℝ) (i : Nat) (h : i < l.length) : l.getD i 0 = l[i] := by
  rw [List.getD_eq_getElem?_getD, List.getElem?_eq_getElem h, Option.getD_some]

/-- C63, Black–Scholes: at every point of the line the drifts add up to the rate of the logarithm times the time, and so do the squares of the deviations. -/
theorem C63_bs_moments (rate div vol x0 : ℝ) (ln : List ℝ) (hl : ln.head? = some 0) (hinc : ln.IsChain (· < ·)) (gauss : Nat → ℝ) (n : Nat)
    (hn : n < ln.length) :
    stateAt (bsStep rate div vol ln gauss) x0 n = x0 + (rate - div - vol ^ 2 / 2) * ln[n] +
      ∑ i ∈ Finset.range n, vol * Real.sqrt (ln.getD (i + 1) 0 - ln.getD i 0) * gauss i ∧
    ∑ i ∈ Finset.range n, (vol * Real.sqrt (ln.getD (i + 1) 0 - ln.getD i 0)) ^ 2 = vol ^ 2 * ln[n] := by
  have h0 : ln.getD 0 0 = 0 := by
    cases ln with
    | nil => cases hl
    | cons a l => cases hl; rfl
  have hmono : ∀ i, i + 1 < ln.length → 0 ≤ ln.getD (i + 1) 0 - ln.getD i 0 := by
    intro i hi
    have := List.isChain_iff_getElem.1 hinc i hi
    rw [getD_at _ _ hi, getD_at _ _ (by omega : i < ln.length)]
    linarith
  have key : ∀ n, n < ln.length → stateAt (bsStep rate div vol ln gauss) x0 n = x0 + (rate - div - vol ^ 2 / 2) * ln.getD n 0 +
      ∑ i ∈ Finset.range n, vol * Real.sqrt (ln.getD (i + 1) 0 - ln.getD i 0) * gauss i ∧
      ∑ i ∈ Finset.range n, (vol * Real.sqrt (ln.getD (i + 1) 0 - ln.getD i 0)) ^ 2 = vol ^ 2 * ln.getD n 0 := by
    intro n
    induction n with
    | zero => intro _; rw [h0]; simp [stateAt]
    | succ n ih =>
      intro hn
      obtain ⟨i1, i2⟩ := ih (by omega)
      constructor
      · rw [stateAt, i1, bsStep, Finset.sum_range_succ]
        ring
      · rw [Finset.sum_range_succ, i2, mul_pow, Real.sq_sqrt (hmono n hn)]
        ring
  have := key n hn
  rwa [getD_at _ _ hn] at this

/-- The time line of a scripted product is strictly increasing for strictly increasing event dates from the evaluation date on, and every date but today is more than half a
day away. -/
theorem C63_script_line (e : Nat) (ds : List Nat) (h : ds.IsChain (· < ·)) (h0 : ∀ d ∈ ds, e ≤ d) :
    (preProcess e ds []).IsChain (· < ·) ∧ ∀ t ∈ preProcess e ds [], t = 0 ∨ 0.00136986301369863 < t := by
  unfold preProcess
  rw [List.nil_append]
  constructor
  · rw [List.isChain_map]
    apply h.imp
    intro a b hab
    have : ((a : Int) : Rat) < ((b : Int) : Rat) := by exact_mod_cast hab
    push_cast at this ⊢
    linarith
  · intro t ht
    obtain ⟨d, hd, rfl⟩ := List.mem_map.1 ht
    rcases (h0 d hd).eq_or_lt with h | h
    · left; rw [h]; simp
    · right
      have : ((1 : Int) : Rat) ≤ (((d : Int) - e : Int) : Rat) := by exact_mod_cast (by omega : (1 : Int) ≤ (d : Int) - e)
      push_cast at this ⊢
      rw [lt_div_iff₀ (by norm_num)]
      norm_num at this ⊢
      linarith

/-- C63 fails for products that are processed twice: their time line is not increasing. -/
theorem C63_preprocess_twice_violated (e d : Nat) : ¬ (preProcess e [d] (preProcess e [d] [])).IsChain (· < ·) := by
  unfold preProcess
  simp

/-! ### The hypotheses hold -/

example : fillData (0 : Rat) 1 (1 / 730) 5 [0, 1 / 2, 3] [] = some [0, 1 / 2, 4 / 3, 13 / 6, 3] := by decide +kernel

example : (dupireAllocate (0 : Rat) 1 (1 / 730) 5 [1 / 2, 2]).map (·.1) = some [0, 1 / 2, 5 / 4, 2] := by decide +kernel

example : [(0 : Rat), 1 / 2, 3].IsChain (· < ·) ∧ [(0 : Rat), 1 / 2, 3].IsChain (fun a b => b - a < 1 * 2147483647) := by
  simp
  norm_num

example : (preProcess 100 [100, 130] []).IsChain (· < ·) := (C63_script_line 100 [100, 130] (by simp) (by simp)).1

example : bsAllocate [(0 : Rat), 1] = some ([0, 1], [true, true]) ∧ bsAllocate [(1 : Rat)] = some ([0, 1], [false, true]) := by decide +kernel

end Dal

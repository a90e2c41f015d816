import Mathlib.Data.List.Chain
import Verif.Time.IncrementProps

/-! # C13: schedule generation -/

namespace Dal
open Date Spec Incr

theorem genFwd_spec (fwd : Date → Date) (maturity : Date)
    (hadv : ∀ x : Date, x.serial ≤ maturity.serial → x.serial < (fwd x).serial) :
    ∀ (n : Nat) (cur : Date), cur.serial ≤ maturity.serial → maturity.serial - cur.serial = n →
    ∃ l : List Date, (∀ fuel, n + 1 ≤ fuel → genFwd fwd maturity fuel cur = some l) ∧
      (cur :: l).IsChain (fun a b => b = fwd a) ∧ (∀ x ∈ cur :: l, x.serial ≤ maturity.serial) ∧
      ∀ z ∈ (cur :: l).getLast?, maturity.serial < (fwd z).serial := by
  intro n
  induction n using Nat.strong_induction_on with
  | _ n ih =>
    intro cur hc hn
    have ha := hadv cur hc
    by_cases hb : lt maturity (fwd cur)
    · refine ⟨[], ?_, by simp, by simpa using hc, ?_⟩
      · intro fuel hf
        obtain ⟨f, rfl⟩ : ∃ f, fuel = f + 1 := ⟨fuel - 1, by omega⟩
        rw [genFwd]; simp only [hb, if_true]
      · intro z hz; simp at hz; subst hz; exact hb
    · have hle : (fwd cur).serial ≤ maturity.serial := by unfold lt at hb; omega
      obtain ⟨l, h1, h2, h3, h4⟩ := ih (maturity.serial - (fwd cur).serial) (by omega) (fwd cur) hle rfl
      refine ⟨fwd cur :: l, ?_, ?_, ?_, ?_⟩
      · intro fuel hf
        obtain ⟨f, rfl⟩ : ∃ f, fuel = f + 1 := ⟨fuel - 1, by omega⟩
        rw [genFwd]; simp only [hb, if_false]
        rw [h1 f (by omega)]; rfl
      · exact List.isChain_cons_cons.2 ⟨rfl, h2⟩
      · intro x hx
        rcases List.mem_cons.1 hx with h | h
        · subst h; exact hc
        · exact h3 x h
      · intro z hz; rw [List.getLast?_cons_cons] at hz; exact h4 z hz

theorem genBack_spec (back : Date → Date) (start : Date)
    (hadv : ∀ x : Date, start.serial ≤ x.serial → (back x).serial < x.serial) :
    ∀ (n : Nat) (cur : Date), start.serial ≤ cur.serial → cur.serial - start.serial = n →
    ∃ l : List Date, (∀ fuel, n + 1 ≤ fuel → genBack back start fuel cur = some l) ∧
      (cur :: l).IsChain (fun a b => b = back a) ∧ (∀ x ∈ cur :: l, start.serial ≤ x.serial) ∧
      ∀ z ∈ (cur :: l).getLast?, (back z).serial < start.serial := by
  intro n
  induction n using Nat.strong_induction_on with
  | _ n ih =>
    intro cur hc hn
    have ha := hadv cur hc
    by_cases hb : lt (back cur) start
    · refine ⟨[], ?_, by simp, by simpa using hc, ?_⟩
      · intro fuel hf
        obtain ⟨f, rfl⟩ : ∃ f, fuel = f + 1 := ⟨fuel - 1, by omega⟩
        rw [genBack]; simp only [hb, if_true]
      · intro z hz; simp at hz; subst hz; exact hb
    · have hle : start.serial ≤ (back cur).serial := by unfold lt at hb; omega
      obtain ⟨l, h1, h2, h3, h4⟩ := ih ((back cur).serial - start.serial) (by omega) (back cur) hle rfl
      refine ⟨back cur :: l, ?_, ?_, ?_, ?_⟩
      · intro fuel hf
        obtain ⟨f, rfl⟩ : ∃ f, fuel = f + 1 := ⟨fuel - 1, by omega⟩
        rw [genBack]; simp only [hb, if_false]
        rw [h1 f (by omega)]; rfl
      · exact List.isChain_cons_cons.2 ⟨rfl, h2⟩
      · intro x hx
        rcases List.mem_cons.1 hx with h | h
        · subst h; exact hc
        · exact h3 x h
      · intro z hz; rw [List.getLast?_cons_cons] at hz; exact h4 z hz

/-- A schedule from `start` to `maturity`: it begins at `start`, ends at `maturity`, and increases
strictly. -/
def IsSchedule (start maturity : Date) (ds : List Date) : Prop :=
  ds.head? = some start ∧ ds.getLast? = some maturity ∧ ds.Pairwise (fun a b => a.serial < b.serial)

/-- FULL CLAIM (false, see `C13_eom_does_not_terminate`): generation terminates with a schedule for
every tenor.  PROVED PART: for every tenor that moves strictly forward from every date up to
`maturity`.  Every step is a tenor step, except possibly a shorter last one. -/
theorem C13_forward_partial (fwd : Date → Date) (start maturity : Date)
    (hse : start.serial ≤ maturity.serial)
    (hadv : ∀ x : Date, x.serial ≤ maturity.serial → x.serial < (fwd x).serial) :
    ∃ ds fuel₀, (∀ fuel ≥ fuel₀, dateGenFwd fwd start maturity fuel = some ds) ∧
      IsSchedule start maturity ds ∧
      ds.IsChain (fun a b => b = fwd a ∨ (b = maturity ∧ maturity.serial < (fwd a).serial)) := by
  obtain ⟨l, h1, h2, h3, h4⟩ := genFwd_spec fwd maturity hadv _ start hse rfl
  have hchain : (start :: l).IsChain (fun a b => a.serial < b.serial) := by
    rw [List.isChain_iff_getElem] at h2 ⊢
    intro i hi
    rw [h2 i hi]
    exact hadv _ (h3 _ (List.getElem_mem _))
  have htrans : ∀ l' : List Date, l'.IsChain (fun a b => a.serial < b.serial) →
      l'.Pairwise (fun a b => a.serial < b.serial) := by
    intro l' hl
    have : IsTrans Date (fun a b => a.serial < b.serial) := ⟨fun _ _ _ h h' => Nat.lt_trans h h'⟩
    exact List.isChain_iff_pairwise.1 hl
  have hl4 : maturity.serial < (fwd ((start :: l).getLast (by simp))).serial :=
    h4 _ (by rw [List.getLast?_eq_getLast_of_ne_nil (by simp)]; rfl)
  by_cases hm : maturity = (start :: l).getLast (by simp)
  · refine ⟨start :: l, maturity.serial - start.serial + 1, ?_, ⟨rfl, ?_, htrans _ hchain⟩, ?_⟩
    · intro fuel hf
      rw [dateGenFwd, h1 fuel hf]
      simp only [Option.map_some]
      rw [if_neg (by simpa using hm)]
    · rw [List.getLast?_eq_getLast_of_ne_nil (by simp), ← hm]
    · exact List.IsChain.imp (fun a b h => Or.inl h) h2
  · have hlast : ((start :: l).getLast (by simp)).serial < maturity.serial := by
      have := h3 _ (List.getLast_mem (l := start :: l) (by simp))
      have hne : ((start :: l).getLast (by simp)).serial ≠ maturity.serial := by
        intro h; apply hm
        have hm' : ∀ a b : Date, a.serial = b.serial → a = b := by
          rintro ⟨a⟩ ⟨b⟩ h; simpa using h
        exact hm' _ _ h.symm
      omega
    refine ⟨(start :: l) ++ [maturity], maturity.serial - start.serial + 1, ?_, ⟨by simp, by rw [List.getLast?_append]; simp, htrans _ ?_⟩, ?_⟩
    · intro fuel hf
      rw [dateGenFwd, h1 fuel hf]
      simp only [Option.map_some]
      rw [if_pos (by simpa using hm)]
    · rw [List.isChain_append]
      refine ⟨hchain, by simp, ?_⟩
      intro x hx y hy
      rw [List.getLast?_eq_getLast_of_ne_nil (by simp)] at hx
      simp at hy hx; subst hy; rw [← hx]; exact hlast
    · rw [List.isChain_append]
      refine ⟨List.IsChain.imp (fun a b h => Or.inl h) h2, by simp, ?_⟩
      intro x hx y hy
      rw [List.getLast?_eq_getLast_of_ne_nil (by simp)] at hx
      simp at hy hx; subst hy; right; rw [← hx]; exact ⟨rfl, hl4⟩

/-- Backward generation, same remarks; the short period comes first. -/
theorem C13_backward_partial (back : Date → Date) (start maturity : Date)
    (hse : start.serial ≤ maturity.serial)
    (hadv : ∀ x : Date, start.serial ≤ x.serial → (back x).serial < x.serial) :
    ∃ ds fuel₀, (∀ fuel ≥ fuel₀, dateGenBack back start maturity fuel = some ds) ∧
      IsSchedule start maturity ds ∧
      ds.IsChain (fun a b => a = back b ∨ (a = start ∧ (back b).serial < start.serial)) := by
  obtain ⟨l, h1, h2, h3, h4⟩ := genBack_spec back start hadv _ maturity hse rfl
  have hchain : (maturity :: l).IsChain (fun a b => b.serial < a.serial) := by
    rw [List.isChain_iff_getElem] at h2 ⊢
    intro i hi
    rw [h2 i hi]
    exact hadv _ (h3 _ (List.getElem_mem _))
  have htrans : ∀ l' : List Date, l'.IsChain (fun a b => b.serial < a.serial) →
      l'.reverse.Pairwise (fun a b => a.serial < b.serial) := by
    intro l' hl
    have : IsTrans Date (fun a b => b.serial < a.serial) := ⟨fun _ _ _ h h' => Nat.lt_trans h' h⟩
    rw [List.pairwise_reverse]
    exact List.isChain_iff_pairwise.1 hl
  have hl4 : (back ((maturity :: l).getLast (by simp))).serial < start.serial :=
    h4 _ (by rw [List.getLast?_eq_getLast_of_ne_nil (by simp)]; rfl)
  by_cases hm : start = (maturity :: l).getLast (by simp)
  · refine ⟨(maturity :: l).reverse, maturity.serial - start.serial + 1, ?_, ⟨?_, ?_, htrans _ hchain⟩, ?_⟩
    · intro fuel hf
      rw [dateGenBack, h1 fuel hf]
      simp only [Option.map_some]
      rw [if_neg (by simpa using hm)]
    · rw [List.head?_reverse, List.getLast?_eq_getLast_of_ne_nil (by simp), ← hm]
    · rw [List.getLast?_reverse]; rfl
    · rw [List.isChain_reverse]; exact List.IsChain.imp (fun a b h => Or.inl h) h2
  · have hlast : start.serial < ((maturity :: l).getLast (by simp)).serial := by
      have := h3 _ (List.getLast_mem (l := maturity :: l) (by simp))
      have hne : ((maturity :: l).getLast (by simp)).serial ≠ start.serial := by
        intro h; apply hm
        have hm' : ∀ a b : Date, a.serial = b.serial → a = b := by
          rintro ⟨a⟩ ⟨b⟩ h; simpa using h
        exact hm' _ _ h.symm
      omega
    refine ⟨((maturity :: l) ++ [start]).reverse, maturity.serial - start.serial + 1, ?_,
      ⟨by simp, by rw [List.getLast?_reverse]; simp, htrans _ ?_⟩, ?_⟩
    · intro fuel hf
      rw [dateGenBack, h1 fuel hf]
      simp only [Option.map_some]
      rw [if_pos (by simpa using hm)]
    · rw [List.isChain_append]
      refine ⟨hchain, by simp, ?_⟩
      intro x hx y hy
      rw [List.getLast?_eq_getLast_of_ne_nil (by simp)] at hx
      simp at hy hx; subst hy; rw [← hx]; exact hlast
    · rw [List.isChain_reverse, List.isChain_append]
      refine ⟨List.IsChain.imp (fun a b h => Or.inl h) h2, by simp, ?_⟩
      intro x hx y hy
      rw [List.getLast?_eq_getLast_of_ne_nil (by simp)] at hx
      simp at hy hx; subst hy; right; rw [← hx]; exact ⟨rfl, hl4⟩

/-- The hypothesis holds for day and week tenors: a step of `k ≥ 1` days moves forward from every
date up to `maturity`, as long as no step leaves the supported range. -/
theorem C13_day_tenors_advance (k : Nat) (maturity : Date) (hk : 1 ≤ k)
    (hm : maturity.serial + k < 65536) :
    ∀ x : Date, x.serial ≤ maturity.serial → x.serial < (addDays x k).serial := by
  intro x hx
  have : (addDays x k).serial = x.serial + k := by
    simp only [addDays, toU16]; omega
  omega

example : (dateGenFwd (fun d => addDays d 7) (mk' 2024 1 1) (mk' 2024 1 20) 100).map (List.map ymd)
    = some [(2024, 1, 1), (2024, 1, 8), (2024, 1, 15), (2024, 1, 20)] := by decide +kernel

example : (dateGenBack (fun d => addMonths d (-1) false) (mk' 2024 1 15) (mk' 2024 4 30) 100).map
    (List.map ymd) = some [(2024, 1, 15), (2024, 1, 29), (2024, 2, 29), (2024, 3, 30), (2024, 4, 30)] := by
  decide +kernel

/-- Month and year tenors move forward too, away from the dates on which the constructor is wrong:
`n ≥ 1` months from any valid date whose target month is in 1970-01..2034-01. -/
theorem C13_month_tenors_advance (n : Int) (x : Date) (hn : 1 ≤ n) (hx : x.Valid)
    (ht : 12 * year x + month x + n ≤ 12 * 2034 + 1) :
    x.serial < (addMonths x n false).serial := by
  obtain ⟨_, b, hy⟩ := ymd_spec hx
  have m1 := b.m1; have m2 := b.m12
  have ht1 : (shiftMonth (year x) (month x) n).1 = (12 * year x + (month x - 1) + n) / 12 := rfl
  have ht2 : (shiftMonth (year x) (month x) n).2 = (12 * year x + (month x - 1) + n) % 12 + 1 := rfl
  have hk : 1970 ≤ (shiftMonth (year x) (month x) n).1 ∧
      ((shiftMonth (year x) (month x) n).1 ≤ 2033 ∨
        (shiftMonth (year x) (month x) n).1 = 2034 ∧ (shiftMonth (year x) (month x) n).2 = 1) ∧
      before (year x, month x, day x) ((shiftMonth (year x) (month x) n).1,
        (shiftMonth (year x) (month x) n).2, min (day x) (monthLen (shiftMonth (year x) (month x) n).1
          (shiftMonth (year x) (month x) n).2)) := by
    rw [ht1, ht2]
    generalize min (day x) (monthLen ((12 * year x + (month x - 1) + n) / 12)
      ((12 * year x + (month x - 1) + n) % 12 + 1)) = e
    simp only [before]
    have hy1 := hy.1
    clear * - m1 m2 hn ht hy1
    generalize day x = dd at *
    generalize year x = y at *
    generalize month x = m at *
    omega
  obtain ⟨v, e⟩ := C05_addMonths_partial x n false hx _ rfl hk.1 (Or.inl hk.2.1) (by simp)
  have h1 := (C02_order_is_calendar_order x (addMonths x n false) hx v).2 (by
    have e1 : (year (addMonths x n false), month (addMonths x n false), day (addMonths x n false)) =
      ymd (addMonths x n false) := rfl
    rw [e1, e]
    simpa using hk.2.2)
  exact h1

example : (mk' 2024 1 31).Valid ∧ ymd (addMonths (mk' 2024 1 31) 1 false) = (2024, 2, 29) := by
  decide +kernel

/-- The end-of-month tenor never gets past the first month end: generation runs for ever. -/
theorem C13_eom_does_not_terminate (fuel : Nat) :
    dateGenFwd (fun d => toEOM d true) (mk' 2024 1 15) (mk' 2024 3 31) fuel = none := by
  have e1 : toEOM (mk' 2024 1 15) true = mk' 2024 1 31 := by decide +kernel
  have e2 : toEOM (mk' 2024 1 31) true = mk' 2024 1 31 := by decide +kernel
  have e3 : ¬ lt (mk' 2024 3 31) (mk' 2024 1 31) := by unfold lt; decide +kernel
  have loop : ∀ f, genFwd (fun d => toEOM d true) (mk' 2024 3 31) f (mk' 2024 1 31) = none := by
    intro f
    induction f with
    | zero => rfl
    | succ f ih => rw [genFwd]; simp only [e2, e3, if_false, ih, Option.map_none]
  have : genFwd (fun d => toEOM d true) (mk' 2024 3 31) fuel (mk' 2024 1 15) = none := by
    cases fuel with
    | zero => rfl
    | succ f => rw [genFwd]; simp only [e1, e3, if_false, loop, Option.map_none]
  rw [dateGenFwd, this]; rfl

theorem mapM_mem {α β : Type} (f : α → Option β) : ∀ (l : List α) (r : List β), l.mapM f = some r →
    ∀ b, b ∈ r ↔ ∃ a ∈ l, f a = some b := by
  intro l
  induction l with
  | nil => intro r h b; simp at h; subst h; simp
  | cons x xs ih =>
    intro r h b
    rw [List.mapM_cons] at h
    cases hx : f x with
    | none => simp [hx] at h
    | some y =>
      cases hxs : xs.mapM f with
      | none => simp [hx, hxs] at h
      | some ys =>
        simp [hx, hxs] at h
        subst h
        rw [List.mem_cons, ih ys hxs b]
        constructor
        · rintro (h | ⟨a, h1, h2⟩)
          · exact ⟨x, by simp, by rw [hx, h]⟩
          · exact ⟨a, by simp [h1], h2⟩
        · rintro ⟨a, h1, h2⟩
          rcases List.mem_cons.1 h1 with h | h
          · subst h; rw [hx] at h2; left; simpa using h2.symm
          · exact Or.inr ⟨a, h, h2⟩

/-- MakeSchedule: whatever the pin dates, the dates returned increase strictly (hence have no
duplicates) and are exactly the adjusted pin dates; with Following every one is a business day. -/
theorem C13_makeSchedule (h : Hol.Hols) (following : Bool) (ds : List Date) (r : List Nat)
    (hr : adjust h following ds = some r) :
    r.Pairwise (· < ·) ∧
    (∀ s, s ∈ r ↔ ∃ d ∈ ds, if following then Hol.nextBus h d.serial = some s else s = d.serial) ∧
    (following = true → ∀ s ∈ r, Hol.isBus h s = true) := by
  unfold adjust at hr
  cases hm : ds.mapM (fun d => if following then Hol.nextBus h d.serial else some d.serial) with
  | none => rw [hm] at hr; simp at hr
  | some l =>
    rw [hm] at hr; simp only [Option.map_some, Option.some.injEq] at hr
    subst hr
    have hmem : ∀ s, s ∈ Hol.unique l ↔
        ∃ d ∈ ds, if following then Hol.nextBus h d.serial = some s else s = d.serial := by
      intro s
      rw [Hol.mem_unique, mapM_mem _ _ _ hm]
      constructor
      · rintro ⟨d, h1, h2⟩
        refine ⟨d, h1, ?_⟩
        cases following
        · simpa using h2.symm
        · simpa using h2
      · rintro ⟨d, h1, h2⟩
        refine ⟨d, h1, ?_⟩
        cases following
        · simpa using h2.symm
        · simpa using h2
    refine ⟨Hol.unique_sorted l, hmem, ?_⟩
    intro hf s hs
    obtain ⟨d, _, h2⟩ := (hmem s).1 hs
    rw [hf] at h2
    exact nextBus_isBus (by simpa using h2)

example : adjust [] true [mk' 2024 1 5, mk' 2024 1 6, mk' 2024 1 7] =
    some [(mk' 2024 1 5).serial, (mk' 2024 1 8).serial] := by decide +kernel

end Dal

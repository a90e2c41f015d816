import Verif.Time.HolidayTextLemmas
import Verif.Time.HolidaysProps
import Mathlib.Data.List.Sort

/-! # C71: calendars named by text -/

namespace Dal
open Dal.Strings Dal.HolText

variable {sgn : Bool}

/-- Specification: some word of the text names, up to case, a registered centre with this property. -/
def NamedCentre (sgn : Bool) (reg : List TCenter) (src : Str) (P : TCenter → Prop) : Prop :=
  ∃ w, Word ' ' src w ∧ ∃ c ∈ reg, eqS sgn c.name w = true ∧ P c

/-- A sort of names: insertion sort meets the contract. -/
def insertionSorter (sgn : Bool) : Sorter sgn where
  run := List.insertionSort fun a b => ltS sgn b a = false
  perm := fun l => List.perm_insertionSort _ l
  sorted := by
    intro l
    haveI : Std.Total fun a b => ltS sgn b a = false := ⟨fun a b => by
      rcases C15_lt_total sgn a b with h | h | h
      · exact .inl h.2.2
      · exact .inl h.2.2
      · exact .inr h.1⟩
    haveI : IsTrans Str fun a b => ltS sgn b a = false := ⟨fun a b c h1 h2 => by
      rw [← Bool.not_eq_true, ltS_iff_map, not_lt] at *
      exact h1.trans h2⟩
    exact List.pairwise_insertionSort _ l

/-! ### A concrete history: two centres, a calendar, its counter, a second calendar from the cache -/

def demoReg : List TCenter := [⟨"LON".toList, [45001, 45008], []⟩, ⟨"nyc".toList, [45002], [45006]⟩]

/-- The calendar as first made from "NYC lon", before anything is cached. -/
def demoParts : List TCenter := demoReg

def demoSt : St := ⟨demoReg, [("LON nyc".toList, ⟨"LON nyc".toList, [45001, 45002, 45008], [45006]⟩)],
  [demoParts]⟩

theorem demo_reachable : Reachable (insertionSorter true) demoSt := by
  have r0 : Reachable (insertionSorter true) ⟨[], [], []⟩ := .init
  have r1 := Reachable.add (reg' := [⟨"LON".toList, [45001, 45008], []⟩]) "LON".toList [45001, 45008] [] r0
    (by decide +kernel)
  have r2 := Reachable.add (reg' := demoReg) "nyc".toList [45002] [45006] r1 (by decide +kernel)
  have r3 := Reachable.text (h := demoParts) "NYC  lon nyc ".toList r2 (by decide +kernel)
  have r4 := Reachable.count (h := demoParts) r3 (by simp)
  have e : (countCtor true ⟨demoReg, [], [demoParts]⟩ demoParts).1 = demoSt := by
    have : mapFind true (nameOf demoParts) ([] : List (Str × TCenter)) = none := rfl
    unfold countCtor
    rw [this]
    unfold demoSt
    simp only [St.mk.injEq, true_and, and_true]
    decide +kernel
  rwa [e] at r4

/-- The second calendar of this history is the cached combination. -/
theorem demo_cached : fromText (insertionSorter true) demoSt "lon nyc".toList =
    some [⟨"LON nyc".toList, [45001, 45002, 45008], [45006]⟩] := by decide +kernel

/-- A text makes a calendar exactly when every one of its words names a registered centre. -/
theorem C71_accepts_iff (s : Sorter sgn) {st : St} (r : Reachable s st) (src : Str) :
    (∃ h, fromText s st src = some h) ↔
      ∀ w, Word ' ' src w → ∃ c ∈ st.reg, eqS sgn c.name w = true := by
  have I := reachable_inv r
  constructor
  · rintro ⟨h, e⟩
    obtain ⟨cs, _, _, h3⟩ := fromText_rep I s e
    exact h3
  · intro hw
    obtain ⟨cs, hcs⟩ : ∃ cs, (uniqueNames s (split ' ' false src)).mapM (ofCenter sgn st.reg) = some cs := by
      apply mapM_isSome
      intro w hm
      obtain ⟨c, hc, he⟩ := hw w ((mem_uniqueNames s src).1 w hm)
      exact ⟨c, (ofCenter_iff I.dist w c).2 ⟨hc, he⟩⟩
    unfold fromText
    rw [hcs]
    simp only
    split
    · split <;> exact ⟨_, rfl⟩
    · exact ⟨_, rfl⟩

example : Reachable (insertionSorter true) demoSt ∧
    fromText (insertionSorter true) demoSt "lon nyc".toList ≠ none ∧
    fromText (insertionSorter true) demoSt "lon tky".toList = none :=
  ⟨demo_reachable, by rw [demo_cached]; simp, by decide +kernel⟩

/-- In every state the program can reach, whatever was cached before, a calendar made from a text has
exactly the holidays and working weekends of the centres its words name. -/
theorem C71_text_means_centres (s : Sorter sgn) {st : St} (r : Reachable s st) {src : Str}
    {h : List TCenter} (e : fromText s st src = some h) (d : Nat) :
    (HolText.isHoliday h d = true ↔ NamedCentre sgn st.reg src fun c => d ∈ c.holidays) ∧
    (HolText.isWorkWeekends h d = true ↔ NamedCentre sgn st.reg src fun c => d ∈ c.workWeekends) := by
  have I := reachable_inv r
  obtain ⟨cs, hr, hm, _⟩ := fromText_rep I s e
  have g := rep_good I.acc hr
  rw [isHolidayT_iff g, isWorkWeekendsT_iff g, rep_mem_hol hr, rep_mem_ww hr]
  unfold NamedCentre
  constructor <;> constructor
  · rintro ⟨c, hc, hd⟩
    obtain ⟨h1, w, h2, h3⟩ := (hm c).1 hc
    exact ⟨w, h2, c, h1, h3, hd⟩
  · rintro ⟨w, hw, c, hc, he, hd⟩
    exact ⟨c, (hm c).2 ⟨hc, w, hw, he⟩, hd⟩
  · rintro ⟨c, hc, hd⟩
    obtain ⟨h1, w, h2, h3⟩ := (hm c).1 hc
    exact ⟨w, h2, c, h1, h3, hd⟩
  · rintro ⟨w, hw, c, hc, he, hd⟩
    exact ⟨c, (hm c).2 ⟨hc, w, hw, he⟩, hd⟩

example : Reachable (insertionSorter true) demoSt ∧
    fromText (insertionSorter true) demoSt "lon nyc".toList = some [⟨"LON nyc".toList, [45001, 45002, 45008], [45006]⟩] ∧
    fromText (insertionSorter true) demoSt " Nyc".toList = some [⟨"nyc".toList, [45002], [45006]⟩] :=
  ⟨demo_reachable, demo_cached, by decide +kernel⟩

/-- Two calendars compare equal exactly when their texts name the same centres: order, repetition and
case of the words, and what happens to be cached, do not matter. -/
theorem C71_equal_iff (s : Sorter sgn) {st : St} (r : Reachable s st) {src src' : Str}
    {h h' : List TCenter} (e : fromText s st src = some h) (e' : fromText s st src' = some h') :
    sameHols sgn h h' = true ↔ ∀ c ∈ st.reg, ((∃ w, Word ' ' src w ∧ eqS sgn c.name w = true) ↔
      ∃ w, Word ' ' src' w ∧ eqS sgn c.name w = true) := by
  have I := reachable_inv r
  obtain ⟨cs, hr, hm, _⟩ := fromText_rep I s e
  obtain ⟨cs', hr', hm', _⟩ := fromText_rep I s e'
  unfold sameHols
  rw [rep_name hr, rep_name hr']
  constructor
  · intro he c hc
    have := canon_eq I.dist hr.canon hr'.canon he
    subst this
    have a := hm c
    have b := hm' c
    simp only [hc, true_and] at a b
    rw [← a, ← b]
  · intro H
    have : cs = cs' := by
      apply canon_ext hr.canon hr'.canon
      intro c
      rw [hm, hm']
      by_cases hc : c ∈ st.reg
      · simp only [hc, true_and]; exact H c hc
      · simp [hc]
    rw [this]
    exact (C15_eq_equivalence sgn).refl _

example : Reachable (insertionSorter true) demoSt ∧
    (fromText (insertionSorter true) demoSt "nyc LON nyc".toList).isSome ∧
    sameHols true demoParts [⟨"LON nyc".toList, [45001, 45002, 45008], [45006]⟩] = true :=
  ⟨demo_reachable, by decide +kernel, by decide +kernel⟩

/-- The name of a calendar is a text for the same calendar. -/
theorem C71_name_roundtrip (s : Sorter sgn) {st : St} (r : Reachable s st) {src : Str}
    {h : List TCenter} (e : fromText s st src = some h) :
    ∃ h', fromText s st (nameOf h) = some h' ∧ nameOf h' = nameOf h ∧ sameHols sgn h' h = true ∧
      ∀ d, HolText.isHoliday h' d = HolText.isHoliday h d ∧
        HolText.isWorkWeekends h' d = HolText.isWorkWeekends h d := by
  have I := reachable_inv r
  obtain ⟨cs, hr, hm, _⟩ := fromText_rep I s e
  have hn : nameOf h = nameOf cs := rep_name hr
  have hw : ∀ w, Word ' ' (nameOf h) w ↔ ∃ c ∈ cs, c.name = w := by
    intro w
    rw [hn, ← mem_split, split_nameOf hr.canon, List.mem_map]
  obtain ⟨h', e'⟩ := (C71_accepts_iff s r (nameOf h)).2 fun w h => by
    obtain ⟨c, hc, rfl⟩ := (hw w).1 h
    exact ⟨c, hr.canon.sub c hc, (C15_eq_equivalence sgn).refl _⟩
  obtain ⟨cs', hr', hm', _⟩ := fromText_rep I s e'
  have hcs : cs' = cs := by
    apply canon_ext hr'.canon hr.canon
    intro c
    rw [hm']
    constructor
    · rintro ⟨hc, w, h1, h2⟩
      obtain ⟨x, hx, rfl⟩ := (hw w).1 h1
      rw [distinct_eq I.dist hc (hr.canon.sub x hx) h2]; exact hx
    · intro hc
      exact ⟨hr.canon.sub c hc, c.name, (hw _).2 ⟨c, hc, rfl⟩, (C15_eq_equivalence sgn).refl _⟩
  subst hcs
  have hnn : nameOf h' = nameOf h := by rw [rep_name hr', hn]
  refine ⟨h', e', hnn, ?_, fun d => ?_⟩
  · unfold sameHols; rw [hnn]; exact (C15_eq_equivalence sgn).refl _
  · have g := rep_good I.acc hr
    have g' := rep_good I.acc hr'
    constructor
    · rw [Bool.eq_iff_iff, isHolidayT_iff g, isHolidayT_iff g', rep_mem_hol hr, rep_mem_hol hr']
    · rw [Bool.eq_iff_iff, isWorkWeekendsT_iff g, isWorkWeekendsT_iff g', rep_mem_ww hr, rep_mem_ww hr']

example : ∃ h, fromText (insertionSorter true) demoSt "nyc lon".toList = some h ∧ nameOf h = "LON nyc".toList :=
  ⟨[⟨"LON nyc".toList, [45001, 45002, 45008], [45006]⟩], by decide +kernel, by decide +kernel⟩

theorem natSorted_ext {l l' : List Nat} (h : Hol.SSorted l) (h' : Hol.SSorted l') (e : ∀ d, d ∈ l ↔ d ∈ l') :
    l = l' := by
  have p : l.Perm l' := (List.perm_ext_iff_of_nodup (h.imp fun h => Nat.ne_of_lt h)
    (h'.imp fun h => Nat.ne_of_lt h)).2 e
  exact p.eq_of_pairwise (fun a b _ _ h1 h2 => absurd h1 (Nat.lt_asymm h2)) h h'

/-- The counter of business days counts, for every calendar made so far and in every reachable state
of the cache, the days of the half-open interval that `NextBus` would accept for that calendar. -/
theorem C71_count_with_cache (s : Sorter sgn) {st : St} (r : Reachable s st) {h : List TCenter}
    (m : h ∈ st.objs) (b e : Nat) :
    count sgn st h b e =
      (((List.range (e - b)).map (b + ·)).filter (Hol.isBus (h.map TCenter.toHol))).length := by
  have I := reachable_inv r
  obtain ⟨cs, hr⟩ := I.objs h m
  have M := countCtor_merged I hr
  have g := rep_good I.acc hr
  have hacc : Accepted (h.map TCenter.toHol) := by
    intro c hc
    obtain ⟨x, hx, rfl⟩ := List.mem_map.1 hc
    exact (Hol.acceptable_iff _ _).2 (g x hx)
  have key : count sgn st h b e = Hol.countBus (h.map TCenter.toHol) b e := by
    unfold count Hol.countBus
    congr 1
    · refine natSorted_ext M.good.sh (Hol.unique_sorted _) fun d => ?_
      rw [M.hol, ← rep_mem_hol hr, Hol.merged, Hol.mem_unique]
      simp [TCenter.toHol]
    · refine natSorted_ext M.good.sw (Hol.unique_sorted _) fun d => ?_
      rw [M.ww, ← rep_mem_ww hr, Hol.merged, Hol.mem_unique]
      simp [TCenter.toHol]
  rw [key, C09_count_is_number_of_business_days _ hacc]

example : Reachable (insertionSorter true) demoSt ∧ demoParts ∈ demoSt.objs ∧
    count true demoSt demoParts 45001 45015 = 8 :=
  ⟨demo_reachable, by simp [demoSt], by decide +kernel⟩

/-- A centre whose name contains a space is accepted by the registration and found by `OfCenter`, but
no calendar can name it. -/
theorem C71_spaced_name_violated : ∃ (reg : List TCenter) (c : TCenter),
    addCenter sgn [] c.name c.holidays c.workWeekends = some reg ∧ ofCenter sgn reg c.name = some c ∧
    ∀ src w, Word ' ' src w → eqS sgn c.name w = false := by
  refine ⟨[⟨"NEW YORK".toList, [], []⟩], ⟨"NEW YORK".toList, [], []⟩, ?_, ?_, ?_⟩
  · cases sgn <;> decide +kernel
  · cases sgn <;> decide +kernel
  · intro src w hw
    by_contra h
    rw [Bool.not_eq_false] at h
    exact (eqS_word h ⟨hw.1, hw.2.1⟩).2 (by decide)

end Dal

import Verif.Indice.RateModel
import Verif.Indice.NameProps
import Verif.Util.VectorProps

/-! # C85: indices of interest rates -/

namespace Dal

open RateIndex Dict Containers Strings DateText Date IndexName

/-! ### Dates -/

private theorem asInt_cases (q : Rat) (h : |q| < 2147483647) : (∃ n : Int, (n : Rat) = q ∧ Dict.asInt q = some n) ∨
    ((∀ n : Int, (n : Rat) ≠ q) ∧ ∃ n, Dict.asInt q = some n) := by
  by_cases hi : ∃ n : Int, (n : Rat) = q
  · obtain ⟨n, rfl⟩ := hi
    exact Or.inl ⟨n, rfl, (C83_as_int n).2.2 n (by exact_mod_cast h)⟩
  · push Not at hi
    have : (Dict.asInt q).isSome := (C83_as_int q).1.1 h
    exact Or.inr ⟨hi, Option.isSome_iff_exists.1 this⟩

private theorem asInt_large (q : Rat) (h : ¬ |q| < 2147483647) : Dict.asInt q = none := by
  rw [Dict.asInt, if_neg h]

/-- The date a cell means: nothing is the fixing date itself, a whole number of days counts from there, dates are meant as they are, tenors count from the
fixing date; everything else is refused. -/
theorem C85_date_of_cell (R : Rules) (fix : Date) :
    (dateFromCell R .blank fix = .ok fix) ∧ (dateFromCell R (.str []) fix = .ok fix) ∧
    (∀ n : Int, |n| < 2147483647 → dateFromCell R (.num n) fix = .ok (addDays fix n)) ∧
    (∀ q : Rat, (∀ n : Int, |n| < 2147483647 → (n : Rat) ≠ q) → dateFromCell R (.num q) fix = .throws) ∧
    (∀ b, dateFromCell R (.bool b) fix = .throws) ∧
    (∀ d, dateFromCell R (.date d) fix = .ok d) ∧
    (∀ t : DateTime, dateFromCell R (.dateTime t) fix = .ok t.date) ∧
    (∀ s, s ≠ [] → dateFromCell R (.str s) fix = R.fwd s fix) := by
  refine ⟨rfl, rfl, fun n hn => ?_, fun q hq => ?_, fun b => rfl, fun d => rfl, fun t => rfl, fun s hs => ?_⟩
  · have := (C83_as_int (n : Rat)).2.2 n hn
    have h : Dict.asInt (n : Rat) = some n := this
    simp [dateFromCell, isEmpty, isInt, RateIndex.toInt, h, Res.bind]
  · by_cases h : |q| < 2147483647
    · rcases asInt_cases q h with ⟨n, hn, _⟩ | ⟨hne, n, hn⟩
      · refine absurd hn (hq n ?_)
        rw [← hn] at h; exact_mod_cast h
      · simp [dateFromCell, isEmpty, isInt, hn, Res.bind, hne n]
    · simp [dateFromCell, isEmpty, isInt, asInt_large q h, Res.bind]
  · cases s with
    | nil => exact absurd rfl hs
    | cons c s => rfl

example : dateFromCell ⟨fun _ _ => .throws, fun _ _ => .throws⟩ (.num 2) ⟨100⟩ = .ok ⟨102⟩ := by decide +kernel

/-- The start of a forward rate: a date is used as it is; otherwise the cell gives a fixing date and the start is its spot date. -/
theorem C85_forward_start (R : Rules) (f : Forward) (fix : DateTime) :
    (∀ d, f.start = .date d → f.startDate R fix = .ok d) ∧
    (f.start = .blank → f.startDate R fix = R.spot f.ccy fix.date) ∧
    (∀ n : Int, |n| < 2147483647 → f.start = .num n → f.startDate R fix = R.spot f.ccy (addDays fix.date n)) ∧
    (∀ s d, s ≠ [] → f.start = .str s → R.fwd s fix.date = .ok d → f.startDate R fix = R.spot f.ccy d) := by
  obtain ⟨h1, h2, h3, h4, h5, h6, h7, h8⟩ := C85_date_of_cell R fix.date
  refine ⟨fun d h => ?_, fun h => ?_, fun n hn h => ?_, fun s d hs h hd => ?_⟩
  · rw [Forward.startDate, h, h6]; rfl
  · rw [Forward.startDate, h, h1]; rfl
  · rw [Forward.startDate, h, h3 n hn]; rfl
  · rw [Forward.startDate, h, h8 s hs, hd]; rfl

example : (Forward.libor "USD".toList "LIBOR_3M_CME".toList (.num 2)).start = .num (2 : Int) := by decide +kernel

/-- The claim that a start given as a fixed time is its date fails: as long as spot dates are later than their fixing, it is not. -/
theorem C85_fixed_time_violated (R : Rules) (hspot : ∀ c d e, R.spot c d = .ok e → e ≠ d) (f : Forward) (t fix : DateTime) (h : f.start = .dateTime t) :
    f.startDate R fix ≠ .ok t.date := by
  intro he
  rw [Forward.startDate, h, (C85_date_of_cell R fix.date).2.2.2.2.2.2.1 t] at he
  exact hspot _ _ _ he rfl

example : ∀ c d e, (⟨fun _ d => .ok (⟨d.serial + 2⟩ : Date), fun _ d => .ok d⟩ : Rules).spot c d = .ok e → e ≠ d := by
  rintro c d e h
  cases h
  intro he
  have := congrArg Date.serial he
  simp at this

/-- Start and maturity of a discount factor are both counted from the fixing date; without a start it starts there. -/
theorem C85_discount_dates (R : Rules) (ccy : Str) (m : Cell) (coll : Option Str) (fix : DateTime) :
    (mkDF ccy m none coll).startDate R fix = .ok fix.date ∧
    (∀ s, (mkDF ccy m (some s) coll).startDate R fix = dateFromCell R s fix.date) ∧
    (∀ s, (mkDF ccy m s coll).maturityDate R fix = dateFromCell R m fix.date) := ⟨rfl, fun _ => rfl, fun _ => rfl⟩

/-! ### Names -/

/-- The cells whose text a name can hold. -/
def NamedCell : Cell → Prop
  | .str _ => True
  | .date _ => True
  | _ => False

/-- What a name shows of a start: nothing for no start, else the text. -/
def startText : Cell → Str
  | .str s => s
  | .date d => toString' d
  | _ => []

private theorem enum_ok {t : EnumTable} (h : ∀ v ∈ t.values, printEnum t v = some v) {v : Str} (hv : v ∈ t.values) : enumText t v = .ok v := by
  rw [enumText, h v hv]

private theorem ccy_ok : ∀ v ∈ ccyTable.values, printEnum ccyTable v = some v := by decide +kernel
private theorem rate_ok : ∀ v ∈ tradedRateTable.values, printEnum tradedRateTable v = some v := by decide +kernel
private theorem ccy_form : ∀ v ∈ ccyTable.values, ',' ∉ v := by decide +kernel
private theorem rate_form : ∀ v ∈ tradedRateTable.values, ',' ∉ v ∧ v.head? = some 'L' := by decide +kernel

private theorem toString_ne (d : Date) : toString' d ≠ [] := by
  unfold toString'
  exact List.append_ne_nil_of_right_ne_nil _ (List.cons_ne_nil _ _)

private theorem startPostfix_ok (c : Cell) (h : NamedCell c ∨ c = .blank) :
    startPostfix c = .ok (if startText c = [] then [] else ',' :: startText c) := by
  rcases h with h | rfl
  · cases c with
    | str s => cases s <;> rfl
    | date d => rw [if_neg (by exact toString_ne d)]; rfl
    | _ => exact absurd h (by simp [NamedCell])
  · rfl

/-- Names of forward rates and discount factors with known currencies and rates, whose cells are texts or dates. -/
theorem C85_names (ccy tenor rate : Str) (start m : Cell) (coll : Option Str) (hc : ccy ∈ ccyTable.values) (ht : rate ∈ tradedRateTable.values)
    (hs : NamedCell start ∨ start = .blank) (hm : NamedCell m) :
    (Forward.libor ccy rate start).name = .ok ("IR:".toList ++ ccy ++ ',' :: rate ++ if startText start = [] then [] else ',' :: startText start) ∧
    (Forward.swap ccy tenor start).name = .ok ("IR:".toList ++ ccy ++ ',' :: tenor ++ if startText start = [] then [] else ',' :: startText start) ∧
    (mkDF ccy m (some start) coll).name =
      .ok ("IR[DF]:".toList ++ ccy ++ (if startText start = [] then [] else ',' :: startText start) ++ ',' :: startText m) := by
  have h1 := enum_ok ccy_ok hc
  have h2 := enum_ok rate_ok ht
  have h3 := startPostfix_ok start hs
  have h4 : matPostfix m = .ok (startText m) := by cases m <;> first | rfl | exact absurd hm (by simp [NamedCell])
  refine ⟨?_, ?_, ?_⟩
  · simp [Forward.name, h1, h2, h3, Res.bind]
  · simp [Forward.name, h1, h3, Res.bind]
  · simp [DF.name, mkDF, h1, h3, h4, Res.bind]

example : (Forward.swap "USD".toList "5Y".toList (.str "2Y".toList)).name = .ok "IR:USD,5Y,2Y".toList ∧
    (mkDF "EUR".toList (.date ⟨30000⟩) none none).name = .ok "IR[DF]:EUR,2052-02-19".toList := by decide +kernel

/-- The claim that every index with dates has a name fails: starts by a number of days or a fixed time have dates but no name. -/
theorem C85_no_name_violated (R : Rules) (ccy tenor : Str) (hc : ccy ∈ ccyTable.values) (fix : DateTime) (n : Int) (hn : |n| < 2147483647) (t : DateTime)
    (m : Cell) (hm : m = .num n ∨ m = .dateTime t) :
    (Forward.swap ccy tenor m).name = .throws ∧ (mkDF ccy m none none).name = .throws ∧ ∃ d, (mkDF ccy m none none).maturityDate R fix = .ok d := by
  have h1 := enum_ok ccy_ok hc
  obtain ⟨-, -, h3, -, -, -, h7, -⟩ := C85_date_of_cell R fix.date
  rcases hm with rfl | rfl
  · refine ⟨?_, ?_, _, h3 n hn⟩
    · simp [Forward.name, h1, startPostfix, isEmpty, matPostfix, Res.bind]
    · simp [DF.name, mkDF, h1, startPostfix, isEmpty, matPostfix, Res.bind]
  · refine ⟨?_, ?_, _, h7 t⟩
    · simp [Forward.name, h1, startPostfix, isEmpty, matPostfix, Res.bind]
    · simp [DF.name, mkDF, h1, startPostfix, isEmpty, matPostfix, Res.bind]

/-- The claim that an empty maturity is refused fails for an empty text. -/
theorem C85_empty_maturity_violated (R : Rules) (ccy : Str) (hc : ccy ∈ ccyTable.values) (fix : DateTime) :
    (mkDF ccy .blank none none).name = .throws ∧ (mkDF ccy (.str []) none none).name = .ok ("IR[DF]:".toList ++ ccy ++ [',']) ∧
    (mkDF ccy (.str []) none none).maturityDate R fix = (mkDF ccy (.str []) none none).startDate R fix := by
  have h1 := enum_ok ccy_ok hc
  refine ⟨?_, ?_, rfl⟩
  · simp [DF.name, mkDF, h1, startPostfix, isEmpty, matPostfix, Res.bind]
  · simp [DF.name, mkDF, h1, startPostfix, isEmpty, matPostfix, Res.bind]

private theorem split_comma {a b c d : Str} (ha : ',' ∉ a) (hc : ',' ∉ c) (h : a ++ ',' :: b = c ++ ',' :: d) : a = c ∧ b = d := by
  induction a generalizing c with
  | nil =>
    cases c with
    | nil => simpa using h
    | cons x c => simp at h; obtain ⟨rfl, -⟩ := h; simp at hc
  | cons x a ih =>
    cases c with
    | nil => simp at h; obtain ⟨rfl, -⟩ := h; simp at ha
    | cons y c =>
      simp only [List.cons_append, List.cons.injEq] at h
      obtain ⟨rfl, h⟩ := h
      obtain ⟨rfl, rfl⟩ := ih (fun h => ha (by simp [h])) (fun h => hc (by simp [h])) h
      exact ⟨rfl, rfl⟩

private theorem tail_eq {a b s t : Str} (ha : ',' ∉ a) (hb : ',' ∉ b)
    (h : a ++ (if s = [] then [] else ',' :: s) = b ++ if t = [] then [] else ',' :: t) : a = b ∧ s = t := by
  by_cases hs : s = [] <;> by_cases ht : t = []
  · simp [hs, ht] at h; exact ⟨h, by rw [hs, ht]⟩
  · rw [if_pos hs, if_neg ht, List.append_nil] at h
    rw [h] at ha; simp at ha
  · rw [if_neg hs, if_pos ht, List.append_nil] at h
    rw [← h] at hb; simp at hb
  · rw [if_neg hs, if_neg ht] at h
    exact split_comma ha hb h

/-- Names tell indices apart, in part: forward rates of known currencies, Libor rates or swaps whose tenor has no comma and does not begin as a Libor does,
with starts that are texts or dates. Equal names are of the same kind, with the same currency, the same rate and starts with the same text. Not so: the kinds
of starts (a date and its text), other starts and other tenors. -/
theorem C85_forward_names_partial (f g : Forward) (t : Str)
    (hf : f.name = .ok t) (hg : g.name = .ok t)
    (ok : ∀ x ∈ [f, g], x.ccy ∈ ccyTable.values ∧ (NamedCell x.start ∨ x.start = .blank) ∧
      match x with | .libor _ r _ => r ∈ tradedRateTable.values | .swap _ r _ => ',' ∉ r ∧ r.head? ≠ some 'L') :
    (∃ c r s s', f = .libor c r s ∧ g = .libor c r s' ∧ startText s = startText s') ∨
    (∃ c r s s', f = .swap c r s ∧ g = .swap c r s' ∧ startText s = startText s') := by
  have form : ∀ x ∈ [f, g], ∃ r, (match x with | .libor _ r _ => r | .swap _ r _ => r) = r ∧ ',' ∉ r ∧
      (x.name = .ok ("IR:".toList ++ x.ccy ++ ',' :: r ++ if startText x.start = [] then [] else ',' :: startText x.start)) := by
    intro x hx
    obtain ⟨h1, h2, h3⟩ := ok x hx
    cases x with
    | libor c r s => exact ⟨r, rfl, (rate_form r h3).1, (C85_names c r r s (.str []) none h1 h3 h2 trivial).1⟩
    | swap c r s => exact ⟨r, rfl, h3.1, (C85_names c r "LIBOR_3M_CME".toList s (.str []) none h1 (by decide +kernel) h2 trivial).2.1⟩
  obtain ⟨r, hr, hrc, hfn⟩ := form f (by simp)
  obtain ⟨r', hr', hrc', hgn⟩ := form g (by simp)
  have okf := ok f (by simp)
  have okg := ok g (by simp)
  rw [hf] at hfn
  rw [hg, hfn] at hgn
  have e := Res.ok.inj hgn
  simp only [List.append_assoc, List.cons_append] at e
  obtain ⟨e1, e2⟩ := split_comma (ccy_form _ okf.1) (ccy_form _ okg.1) (List.append_cancel_left e)
  obtain ⟨e3, e4⟩ := tail_eq hrc hrc' e2
  cases f with
  | libor c rf s =>
    cases g with
    | libor c' rg s' =>
      left
      dsimp only at hr hr'
      refine ⟨c, rf, s, s', rfl, ?_, e4⟩
      rw [hr, e3, ← hr']; cases e1; rfl
    | swap c' rg s' =>
      dsimp only at hr hr'
      have h1 := (rate_form rf okf.2.2).2
      have h2 := okg.2.2.2
      rw [hr, e3, ← hr'] at h1
      exact absurd h1 h2
  | swap c rf s =>
    cases g with
    | swap c' rg s' =>
      right
      dsimp only at hr hr'
      refine ⟨c, rf, s, s', rfl, ?_, e4⟩
      rw [hr, e3, ← hr']; cases e1; rfl
    | libor c' rg s' =>
      dsimp only at hr hr'
      have h1 := (rate_form rg okg.2.2).2
      have h2 := okf.2.2.2
      rw [hr', ← e3, ← hr] at h1
      exact absurd h1 h2

example : (Forward.swap "USD".toList "5Y".toList .blank).name = .ok "IR:USD,5Y".toList ∧ ("5Y".toList).head? ≠ some 'L' := by decide +kernel

/-- The claim for all indices fails: a swap may be named as a Libor rate, or as one that starts later; a discount factor says nothing of its collateral. -/
theorem C85_same_names_violated :
    (Forward.swap "USD".toList "LIBOR_3M_CME".toList .blank).name = (Forward.libor "USD".toList "LIBOR_3M_CME".toList .blank).name ∧
    (Forward.swap "USD".toList "5Y,2Y".toList .blank).name = (Forward.swap "USD".toList "5Y".toList (.str "2Y".toList)).name ∧
    (Forward.swap "USD".toList "5Y".toList (.date ⟨30000⟩)).name = (Forward.swap "USD".toList "5Y".toList (.str "2052-02-19".toList)).name ∧
    ∀ c m s, (⟨c, m, some "OIS".toList, s⟩ : DF).name = (⟨c, m, some "GC".toList, s⟩ : DF).name := by
  refine ⟨by decide +kernel, by decide +kernel, by decide +kernel, fun c m s => rfl⟩

/-- The claim that a discount factor has the collateral it is made with fails for every collateral. -/
theorem C85_collateral_violated (c : Str) (m : Cell) (s : Option Cell) (coll : Str) : (mkDF c m s (some coll)).collateral ≠ some coll := by
  simp [mkDF]

/-- The claim that names can be parsed (and so indices cloned) fails for every rate index: no parser is registered for them. -/
theorem C85_parse_violated :
    (∀ (f : Forward) (t : Str), f.name = .ok t → parseIndex registry t = .throws) ∧
    (∀ (f : DF) (t : Str), f.name = .ok t → parseIndex registry t = .throws) := by
  have bind_ok : ∀ {α β : Type} {x : Res α} {f : α → Res β} {b : β}, x.bind f = .ok b → ∃ a, f a = .ok b := by
    intro α β x f b h
    cases x with
    | ok a => exact ⟨a, h⟩
    | throws => cases h
    | undefined => cases h
  have key : ∀ (c : Char) (r : Str), (c = ':' ∨ c = '[') → parseIndex registry ("IR".toList ++ c :: r) = .throws := by
    intro c r hc
    have e1 : findFirstOf ("IR".toList ++ c :: r) [':', '['] 0 = 2 := by
      rcases hc with rfl | rfl <;> simp [findFirstOf, List.findIdx?_cons]
    have e2 : substr ("IR".toList ++ c :: r) 0 2 = some "IR".toList := by
      rw [substr, if_pos (Nat.zero_le _)]; rfl
    have e3 : registry.lookup "IR".toList = none := by
      unfold registry
      simp [List.lookup]
    unfold parseIndex
    dsimp only
    rw [e1, if_neg (by decide), e2]
    dsimp only
    rw [e3]
  constructor
  · intro f t h
    have : ∃ r, t = "IR".toList ++ ':' :: r := by
      cases f with
      | libor c x s =>
        obtain ⟨a, h⟩ := bind_ok h
        obtain ⟨b, h⟩ := bind_ok h
        obtain ⟨d, h⟩ := bind_ok h
        exact ⟨_, by rw [← Res.ok.inj h]; simp; rfl⟩
      | swap c x s =>
        obtain ⟨a, h⟩ := bind_ok h
        obtain ⟨b, h⟩ := bind_ok h
        exact ⟨_, by rw [← Res.ok.inj h]; simp; rfl⟩
    obtain ⟨r, rfl⟩ := this
    exact key _ r (Or.inl rfl)
  · intro f t h
    have : ∃ r, t = "IR".toList ++ '[' :: r := by
      obtain ⟨a, h⟩ := bind_ok h
      obtain ⟨b, h⟩ := bind_ok h
      obtain ⟨d, h⟩ := bind_ok h
      exact ⟨_, by rw [← Res.ok.inj h]; simp; rfl⟩
    obtain ⟨r, rfl⟩ := this
    exact key _ r (Or.inr rfl)

end Dal

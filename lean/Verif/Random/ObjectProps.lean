import Verif.Random.ObjectModel
import Verif.Random.PseudoProps
import Verif.Strings.StringProps

/-!
# C95: generators of pseudo-random numbers as objects

Specification: one sequence of numbers for each seed, cut into rows; every second row of uniform numbers mirrors the one before.
-/

namespace Dal

open Dal.Rng Dal.RsgObject Dal.Strings

/-! ### The sequence of a generator -/

private theorem draws_irn (seed : Int) : ∀ (n : Nat) (s : Irn), draws n (.irn seed s) = (Irn.draws n s).map fun r => (r.1.map irnUniform, .irn seed r.2)
  | 0, _ => rfl
  | n + 1, s => by
    rw [draws, Irn.draws, Gen.next]
    rcases s.next with _ | ⟨u, s'⟩
    · rfl
    · rw [Option.map_some, Option.bind_some]
      dsimp only
      rw [draws_irn seed n s']
      rcases Irn.draws n s' with _ | r <;> rfl

private theorem draws_mrg (a b : Nat) : ∀ (n : Nat) (s : Mrg), ∃ s', draws n (.mrg a b s) = some (Mrg.draws n s, .mrg a b s')
  | 0, s => ⟨s, rfl⟩
  | n + 1, s => by
    obtain ⟨s', h⟩ := draws_mrg a b n s.next.2
    refine ⟨s', ?_⟩
    rw [draws, Gen.next, Option.bind_some]
    dsimp only
    rw [h, Mrg.draws]
    rfl

/-- The numbers never run out and lie strictly between 0 and 1. -/
private def Good (g : Gen) : Prop := ∀ n, ∃ l g', draws n g = some (l, g') ∧ ∀ u ∈ l, 0 < u ∧ u < 1

private theorem good_irn {seed : Int} {s : Irn} (h : Irn.create (toUnsigned seed) = some s) : Good (.irn seed s) := by
  intro n
  obtain ⟨s0, us, s', h1, h2, _, h4⟩ := C39_irn (toUnsigned seed) n
  rw [h] at h1
  cases h1
  refine ⟨us.map irnUniform, .irn seed s', by rw [draws_irn, h2]; rfl, fun u hu => ?_⟩
  obtain ⟨k, hk, rfl⟩ := List.mem_map.1 hu
  exact h4 k hk

private theorem good_mrg (a b : Nat) (s : Mrg) : Good (.mrg a b s) := by
  intro n
  obtain ⟨s', h⟩ := draws_mrg a b n s
  exact ⟨_, _, h, (C39_mrg s n).2⟩

private theorem draws_snoc : ∀ (n : Nat) (g : Gen), draws (n + 1) g = (draws n g).bind fun r => r.2.next.map fun q => (r.1 ++ [q.1], q.2)
  | 0, g => by
    rw [draws, draws, Option.bind_some]
    rcases g.next with _ | r <;> rfl
  | n + 1, g => by
    rw [draws]
    rcases hg : g.next with _ | r
    · rw [draws, hg]; rfl
    · rw [Option.bind_some, draws_snoc n r.2, draws, hg, Option.bind_some]
      rcases draws n r.2 with _ | q
      · rfl
      · rw [Option.bind_some, Option.map_some, Option.bind_some]
        dsimp only
        rcases q.2.next with _ | w <;> rfl

/-- The generator after `k` numbers. -/
private def after (g : Gen) (k : Nat) : Gen := ((draws k g).map (·.2)).getD g

/-- The `k`-th number. -/
private def nth (g : Gen) (k : Nat) : Rat := ((after g k).next.map (·.1)).getD 0

private theorem draws_seq {g : Gen} (hg : Good g) : ∀ n, draws n g = some ((List.range n).map (nth g), after g n)
  | 0 => rfl
  | n + 1 => by
    have ih := draws_seq hg n
    obtain ⟨l, g', h, _⟩ := hg (n + 1)
    rw [draws_snoc, ih, Option.bind_some] at h
    dsimp only at h
    rcases hn : (after g n).next with _ | q
    · rw [hn] at h; cases h
    · have e : draws (n + 1) g = some ((List.range n).map (nth g) ++ [q.1], q.2) := by
        rw [draws_snoc, ih, Option.bind_some]
        dsimp only
        rw [hn]
        rfl
      have e1 : nth g n = q.1 := by unfold nth; rw [hn]; rfl
      have e2 : after g (n + 1) = q.2 := by
        show ((draws (n + 1) g).map (·.2)).getD g = q.2
        rw [e]
        rfl
      rw [e, List.range_succ, List.map_append, e2, List.map_cons, e1]
      rfl

private theorem nth_bounds {g : Gen} (hg : Good g) (k : Nat) : 0 < nth g k ∧ nth g k < 1 := by
  obtain ⟨l, g', h, hb⟩ := hg (k + 1)
  rw [draws_seq hg (k + 1)] at h
  cases h
  exact hb _ (List.mem_map.2 ⟨k, List.mem_range.2 (by omega), rfl⟩)

private theorem draws_from {g : Gen} (hg : Good g) (k : Nat) : ∀ n, draws n (after g k) = some ((List.range n).map fun j => nth g (k + j), after g (k + n))
  | 0 => rfl
  | n + 1 => by
    rw [draws_snoc, draws_from hg k n, Option.bind_some]
    dsimp only
    have h := draws_seq hg (k + n + 1)
    rw [draws_snoc, draws_seq hg (k + n), Option.bind_some] at h
    dsimp only at h
    rcases hn : (after g (k + n)).next with _ | q
    · rw [hn] at h; cases h
    · rw [hn] at h
      have h := Option.some.inj h
      have e2 : q.2 = after g (k + n + 1) := congrArg Prod.snd h
      have e1 : nth g (k + n) = q.1 := by unfold nth; rw [hn]; rfl
      rw [Option.map_some, List.range_succ, List.map_append, List.map_cons, e1, e2]
      rfl

/-! ### Rows -/

/-- The row of uniform numbers with the given index, from a sequence: every second one mirrors the row before it. -/
def uniformRow (u : Nat → Rat) (d i : Nat) : List Rat :=
  (List.range d).map fun j => if i % 2 = 0 then u (i / 2 * d + j) else 1 - u (i / 2 * d + j)

/-- A generator that has filled `i` rows of uniform numbers of size `d`. -/
private structure At (g : Gen) (d i : Nat) (pr : Bool) (p : Pseudo) : Prop where
  gen : p.gen = after g ((i + 1) / 2 * d)
  anti : p.anti = decide (i % 2 = 1)
  size : p.cache.length = d
  cache : i % 2 = 1 → p.cache = (List.range d).map fun j => nth g (i / 2 * d + j)
  precise : p.precise = pr

private theorem at_step {g : Gen} (hg : Good g) {d i : Nat} {pr : Bool} {p : Pseudo} (h : At g d i pr p) :
    ∃ p', p.fillUniform d = some (uniformRow (nth g) d i, p') ∧ At g d (i + 1) pr p' := by
  unfold Pseudo.fillUniform
  rw [if_neg (by rw [h.size]; omega)]
  by_cases hi : i % 2 = 1
  · have ha : p.anti = true := by rw [h.anti]; exact decide_eq_true hi
    rw [if_pos ha]
    refine ⟨_, congrArg some (Prod.ext ?_ rfl), ?_⟩
    · dsimp only
      rw [h.cache hi, List.take_of_length_le (by rw [List.length_map, List.length_range]), List.map_map]
      unfold uniformRow
      refine List.map_congr_left fun j _ => ?_
      rw [if_neg (by omega)]
      rfl
    · exact ⟨by dsimp only; rw [h.gen, show (i + 1 + 1) / 2 = (i + 1) / 2 by omega], (decide_eq_false (by omega)).symm, h.size, fun hc => by omega, h.precise⟩
  · have ha : p.anti = false := by rw [h.anti]; exact decide_eq_false hi
    rw [ha, if_neg (by decide), h.gen, draws_from hg, Option.map_some]
    refine ⟨_, congrArg some (Prod.ext ?_ rfl), ?_⟩
    · dsimp only
      unfold uniformRow
      refine List.map_congr_left fun j _ => ?_
      rw [if_pos (by omega), show (i + 1) / 2 = i / 2 by omega]
    · have hdrop : p.cache.drop d = [] := List.drop_eq_nil_of_le h.size.le
      refine ⟨?_, (decide_eq_true (by omega)).symm, ?_, fun _ => ?_, h.precise⟩
      · dsimp only
        rw [show (i + 1 + 1) / 2 = (i + 1) / 2 + 1 by omega, Nat.add_mul, one_mul]
      · dsimp only
        rw [hdrop, List.append_nil, List.length_map, List.length_range]
      · dsimp only
        rw [hdrop, List.append_nil]

private theorem at_rows {g : Gen} (hg : Good g) {d : Nat} {pr : Bool} : ∀ (n : Nat) {i : Nat} {p : Pseudo}, At g d i pr p →
    ∃ p', RsgObject.getUniform d n p = some ((List.range n).map fun r => uniformRow (nth g) d (i + r), p') ∧ At g d (i + n) pr p'
  | 0, _, p, h => ⟨p, rfl, h⟩
  | n + 1, i, p, h => by
    obtain ⟨p1, h1, h2⟩ := at_step hg h
    obtain ⟨p2, h3, h4⟩ := at_rows hg n h2
    refine ⟨p2, ?_, by rw [show i + (n + 1) = i + 1 + n by omega]; exact h4⟩
    rw [RsgObject.getUniform, h1, Option.bind_some]
    dsimp only
    rw [h3, Option.map_some, List.range_succ_eq_map, List.map_cons, List.map_map]
    refine congrArg some (Prod.ext (List.cons_eq_cons.2 ⟨rfl, List.map_congr_left fun r _ => ?_⟩) rfl)
    show uniformRow (nth g) d (i + 1 + r) = uniformRow (nth g) d (i + (r + 1))
    rw [show i + 1 + r = i + (r + 1) by omega]

private theorem normal_rows {g : Gen} (hg : Good g) {β : Type} (inv : Bool → Rat → β) {d : Nat} : ∀ (n k : Nat) (p : Pseudo), p.gen = after g k →
    ∃ p', RsgObject.getNormal inv d n p = some ((List.range n).map fun r => (List.range d).map fun j => inv p.precise (nth g (k + r * d + j)), p')
  | 0, _, p, _ => ⟨p, rfl⟩
  | n + 1, k, p, h => by
    have h1 : p.fillNormal inv d = some ((List.range d).map fun j => inv p.precise (nth g (k + j)), { p with gen := after g (k + d) }) := by
      unfold Pseudo.fillNormal
      rw [h, draws_from hg, Option.map_some, List.map_map]
      rfl
    obtain ⟨p', h2⟩ := normal_rows hg inv n (k + d) { p with gen := after g (k + d) } rfl
    refine ⟨p', ?_⟩
    rw [RsgObject.getNormal, h1, Option.bind_some]
    dsimp only
    rw [h2, Option.map_some, List.range_succ_eq_map, List.map_cons, List.map_map]
    refine congrArg some (Prod.ext (List.cons_eq_cons.2 ⟨List.map_congr_left fun j _ => by rw [Nat.zero_mul, Nat.add_zero], List.map_congr_left fun r _ => ?_⟩) rfl)
    refine List.map_congr_left fun j _ => ?_
    show inv p.precise (nth g (k + d + r * d + j)) = inv p.precise (nth g (k + (r + 1) * d + j))
    rw [show k + d + r * d + j = k + (r + 1) * d + j by rw [Nat.add_mul, Nat.one_mul]; omega]

private theorem new_good {k : Kind} {seed : Int} {d : Nat} {pr : Bool} {p : Pseudo} (h : newPseudo k seed d pr = some p) :
    Good p.gen ∧ At p.gen d 0 pr p := by
  have hfresh : ∀ g, At g d 0 pr ⟨g, List.replicate d 0, false, pr⟩ := fun g =>
    ⟨by rw [show (0 + 1) / 2 * d = 0 by norm_num]; rfl, rfl, List.length_replicate .., fun hc => absurd hc (by decide), rfl⟩
  unfold newPseudo at h
  cases k with
  | IRN =>
    dsimp only at h
    unfold newIrn at h
    rw [Option.map_eq_some_iff] at h
    obtain ⟨s, hs, rfl⟩ := h
    exact ⟨good_irn hs, hfresh _⟩
  | MRG32 =>
    dsimp only at h
    split at h
    · cases h
      exact ⟨good_mrg _ _ _, hfresh _⟩
    · cases h

private theorem obj_new {sgn : Bool} {name : Str} {seed nDim : Int} {pr : Bool} {o : Obj} (h : newObj sgn name seed nDim pr = some o) :
    0 ≤ nDim ∧ ∃ k p, readKind sgn name = some k ∧ newPseudo k seed nDim.toNat pr = some p ∧ o = ⟨name, seed, nDim, pr, p⟩ := by
  unfold newObj at h
  rw [Option.bind_eq_some_iff] at h
  obtain ⟨k, hk, h⟩ := h
  split at h
  · cases h
  · rw [Option.map_eq_some_iff] at h
    obtain ⟨p, hp, rfl⟩ := h
    exact ⟨by omega, k, p, hk, hp, rfl⟩

/-- C95: to each object belongs a sequence of numbers strictly between 0 and 1. The rows of uniform numbers are its consecutive pieces, each
followed by its mirror image; normal numbers asked for after some uniform ones come from the pieces that follow, without mirrors. No
index is ever out of range. -/
theorem C95_rows {sgn : Bool} {name : Str} {seed nDim : Int} {pr : Bool} {o : Obj} (h : newObj sgn name seed nDim pr = some o) :
    ∃ u : Nat → Rat, (∀ k, 0 < u k ∧ u k < 1) ∧ ∀ m, ∃ o', o.getUniform m = some ((List.range m).map (uniformRow u nDim.toNat), o') ∧
      ∀ {β : Type} (inv : Bool → Rat → β) (n : Nat), ∃ o'', o'.getNormal inv n =
        some ((List.range n).map fun r => (List.range nDim.toNat).map fun j => inv pr (u ((m + 1) / 2 * nDim.toNat + r * nDim.toNat + j)), o'') := by
  obtain ⟨_, k, p, _, hp, rfl⟩ := obj_new h
  obtain ⟨hg, hat⟩ := new_good hp
  refine ⟨nth p.gen, nth_bounds hg, fun m => ?_⟩
  obtain ⟨p', h1, h2⟩ := at_rows hg m hat
  refine ⟨⟨name, seed, nDim, pr, p'⟩, ?_, fun inv n => ?_⟩
  · unfold Obj.getUniform
    dsimp only
    rw [hat.size, h1, Option.map_some]
    refine congrArg some (Prod.ext (List.map_congr_left fun r _ => ?_) rfl)
    rw [Nat.zero_add]
  · have hgen := h2.gen
    rw [Nat.zero_add] at hgen
    obtain ⟨p'', h3⟩ := normal_rows hg inv (d := nDim.toNat) n _ p' hgen
    refine ⟨⟨name, seed, nDim, pr, p''⟩, ?_⟩
    unfold Obj.getNormal
    dsimp only
    rw [h2.size, h3, Option.map_some, h2.precise]

private theorem uniform_add (d : Nat) : ∀ (m n : Nat) (p : Pseudo), RsgObject.getUniform d (m + n) p =
    (RsgObject.getUniform d m p).bind fun r => (RsgObject.getUniform d n r.2).map fun q => (r.1 ++ q.1, q.2)
  | 0, n, p => by
    rw [Nat.zero_add, RsgObject.getUniform, Option.bind_some]
    rcases RsgObject.getUniform d n p with _ | q <;> rfl
  | m + 1, n, p => by
    rw [show m + 1 + n = (m + n) + 1 by omega, RsgObject.getUniform, RsgObject.getUniform]
    rcases p.fillUniform d with _ | r
    · rfl
    · rw [Option.bind_some, Option.bind_some, uniform_add d m n r.2]
      rcases RsgObject.getUniform d m r.2 with _ | q
      · rfl
      · rw [Option.bind_some, Option.map_some, Option.bind_some]
        dsimp only
        rcases RsgObject.getUniform d n q.2 with _ | w <;> rfl

private theorem uniform_size {d : Nat} : ∀ (n : Nat) {p p' : Pseudo} {l : List (List Rat)}, RsgObject.getUniform d n p = some (l, p') → p.cache.length = d → p'.cache.length = d
  | 0, p, p', l, h, hd => by cases h; exact hd
  | n + 1, p, p', l, h, hd => by
    rw [RsgObject.getUniform, Option.bind_eq_some_iff] at h
    obtain ⟨r, hr, h⟩ := h
    rw [Option.map_eq_some_iff] at h
    obtain ⟨q, hq, h⟩ := h
    cases h
    refine uniform_size n hq ?_
    unfold Pseudo.fillUniform at hr
    split at hr
    · cases hr
    · split at hr
      · cases hr; exact hd
      · rw [Option.map_eq_some_iff] at hr
        obtain ⟨w, hw, hr⟩ := hr
        cases hr
        dsimp only
        have hl : ∀ (n : Nat) (g g' : Gen) (l : List Rat), draws n g = some (l, g') → l.length = n := by
          intro n
          induction n with
          | zero => intro g g' l h; cases h; rfl
          | succ n ih =>
            intro g g' l h
            rw [draws, Option.bind_eq_some_iff] at h
            obtain ⟨a, _, h⟩ := h
            rw [Option.map_eq_some_iff] at h
            obtain ⟨b, hb, h⟩ := h
            cases h
            rw [List.length_cons, ih _ _ _ hb]
        rw [List.length_append, List.length_drop, hl d p.gen w.2 w.1 hw, hd]
        omega

/-- C95: asking for some rows and then for more gives the rows that asking once for all of them gives, whatever the state of the object. -/
theorem C95_split (o : Obj) (m n : Nat) : o.getUniform (m + n) =
    (o.getUniform m).bind fun r => (r.2.getUniform n).map fun q => (r.1 ++ q.1, q.2) := by
  unfold Obj.getUniform
  rw [uniform_add]
  rcases h : RsgObject.getUniform o.rsg.cache.length m o.rsg with _ | r
  · rfl
  · rw [Option.bind_some, Option.map_some, Option.bind_some]
    dsimp only
    rw [uniform_size m h rfl]
    rcases RsgObject.getUniform o.rsg.cache.length n r.2 with _ | q <;> rfl

/-- C95: an object is made exactly of a name that, spaces and underscores removed and in capitals, is one of four, with a dimension that is
not negative and, for two of the names, a seed below the largest. -/
theorem C95_names (sgn : Bool) (name : Str) (hn : Ascii name) (seed nDim : Int) (pr : Bool) : (newObj sgn name seed nDim pr).isSome = true ↔
    0 ≤ nDim ∧ ((condensed name = "IRN".toList ∨ condensed name = "SHUFFLEDIRN".toList) ∨
      ((condensed name = "MRG32".toList ∨ condensed name = "MRG32K32A".toList) ∧ seed < 2147483647)) := by
  have e : ∀ w : Str, Ascii w → condensed w = w → (equivalent sgn name w = true ↔ condensed name = w) := fun w hw hc =>
    C16_equivalent_condensed sgn name w hn hw hc
  have e1 := e "IRN".toList (by unfold Ascii; decide) (by decide)
  have e2 := e "SHUFFLEDIRN".toList (by unfold Ascii; decide) (by decide)
  have e3 := e "MRG32".toList (by unfold Ascii; decide) (by decide)
  have e4 := e "MRG32K32A".toList (by unfold Ascii; decide) (by decide)
  have n1 : "IRN".toList ≠ [] := by decide
  have n2 : "SHUFFLEDIRN".toList ≠ [] := by decide
  have n3 : "MRG32".toList ≠ [] := by decide
  have n4 : "MRG32K32A".toList ≠ [] := by decide
  have d13 : "IRN".toList ≠ "MRG32".toList := by decide
  have d14 : "IRN".toList ≠ "MRG32K32A".toList := by decide
  have d23 : "SHUFFLEDIRN".toList ≠ "MRG32".toList := by decide
  have d24 : "SHUFFLEDIRN".toList ≠ "MRG32K32A".toList := by decide
  have hirn : ∀ d, (newPseudo .IRN seed d pr).isSome = true := fun d => by
    obtain ⟨s, _, _, h, _⟩ := C39_irn (toUnsigned seed) 0
    unfold newPseudo newIrn
    dsimp only
    rw [h]
    rfl
  have hmrg : ∀ d, (newPseudo .MRG32 seed d pr).isSome = true ↔ seed < 2147483647 := fun d => by
    unfold newPseudo
    dsimp only
    split
    · exact ⟨fun _ => by omega, fun _ => rfl⟩
    · exact ⟨fun h => (Bool.false_ne_true h).elim, fun h => by omega⟩
  have hk : (newObj sgn name seed nDim pr).isSome = true ↔ 0 ≤ nDim ∧ ∃ k, readKind sgn name = some k ∧ (newPseudo k seed nDim.toNat pr).isSome = true := by
    unfold newObj
    rcases readKind sgn name with _ | k
    · exact ⟨fun h => (Bool.false_ne_true h).elim, fun ⟨_, k, h, _⟩ => by cases h⟩
    · rw [Option.bind_some]
      split
      · exact ⟨fun h => (Bool.false_ne_true h).elim, fun ⟨h, _⟩ => by omega⟩
      · rw [Option.isSome_map]
        exact ⟨fun h => ⟨by omega, k, rfl, h⟩, fun ⟨_, k', h1, h2⟩ => by cases h1; exact h2⟩
  rw [hk]
  unfold readKind
  generalize "IRN".toList = w1 at *
  generalize "SHUFFLEDIRN".toList = w2 at *
  generalize "MRG32".toList = w3 at *
  generalize "MRG32K32A".toList = w4 at *
  refine and_congr_right fun _ => ?_
  by_cases h0 : name = []
  · subst h0
    rw [if_pos rfl]
    have hc : condensed ([] : Str) = [] := rfl
    rw [hc]
    constructor
    · rintro ⟨k, h, _⟩; cases h
    · rintro ((h | h) | ⟨h | h, _⟩)
      · exact absurd h.symm n1
      · exact absurd h.symm n2
      · exact absurd h.symm n3
      · exact absurd h.symm n4
  · rw [if_neg h0]
    by_cases h1 : condensed name = w1
    · rw [if_pos (e1.2 h1)]
      exact ⟨fun _ => Or.inl (Or.inl h1), fun _ => ⟨_, rfl, hirn _⟩⟩
    · rw [if_neg (fun h => h1 (e1.1 h))]
      by_cases h2 : condensed name = w2
      · rw [if_pos (e2.2 h2)]
        exact ⟨fun _ => Or.inl (Or.inr h2), fun _ => ⟨_, rfl, hirn _⟩⟩
      · rw [if_neg (fun h => h2 (e2.1 h))]
        by_cases h3 : condensed name = w3
        · rw [if_pos (e3.2 h3)]
          constructor
          · rintro ⟨k, h, h'⟩
            cases h
            exact Or.inr ⟨Or.inl h3, (hmrg _).1 h'⟩
          · rintro (h | ⟨_, h⟩)
            · exact absurd h (not_or.2 ⟨h1, h2⟩)
            · exact ⟨_, rfl, (hmrg _).2 h⟩
        · rw [if_neg (fun h => h3 (e3.1 h))]
          by_cases h4 : condensed name = w4
          · rw [if_pos (e4.2 h4)]
            constructor
            · rintro ⟨k, h, h'⟩
              cases h
              exact Or.inr ⟨Or.inr h4, (hmrg _).1 h'⟩
            · rintro (h | ⟨_, h⟩)
              · exact absurd h (not_or.2 ⟨h1, h2⟩)
              · exact ⟨_, rfl, (hmrg _).2 h⟩
          · rw [if_neg (fun h => h4 (e4.1 h))]
            constructor
            · rintro ⟨k, h, _⟩; cases h
            · rintro (h | ⟨h, _⟩)
              · exact absurd h (not_or.2 ⟨h1, h2⟩)
              · exact absurd h (not_or.2 ⟨h3, h4⟩)

/-- C95, not so: the name asked for is the name of the kind, so an object cannot have a name of its own. -/
theorem C95_own_name_violated (sgn : Bool) (seed nDim : Int) (pr : Bool) : newObj sgn "my generator".toList seed nDim pr = none := by
  have h := C95_names sgn "my generator".toList (by unfold Ascii; decide) seed nDim pr
  rcases hc : newObj sgn "my generator".toList seed nDim pr with _ | o
  · rfl
  · rw [hc] at h
    exact absurd (h.1 rfl).2 (by
      rintro ((h | h) | ⟨h | h, _⟩)
      · exact absurd h (by decide)
      · exact absurd h (by decide)
      · exact absurd h (by decide)
      · exact absurd h (by decide))

/-- C95, not so: the largest seed makes the second kind of generator overflow. -/
theorem C95_seed_violated (sgn : Bool) (nDim : Int) (pr : Bool) : newObj sgn "MRG32".toList 2147483647 nDim pr = none := by
  have h := C95_names sgn "MRG32".toList (by unfold Ascii; decide) 2147483647 nDim pr
  rcases hc : newObj sgn "MRG32".toList 2147483647 nDim pr with _ | o
  · rfl
  · rw [hc] at h
    rcases (h.1 rfl).2 with (h | h) | ⟨_, h⟩
    · exact absurd h (by decide)
    · exact absurd h (by decide)
    · omega

/-- C95, not so: with a seed of zero the first of the two recurrences behind the numbers stays at zero for ever. -/
theorem C95_zero_seed_violated (b n : Nat) : (Mrg.steps n (Mrg.reset 0 b)).x = ⟨0, 0, 0⟩ := by
  induction n with
  | zero => rfl
  | succ n ih =>
    rw [Mrg.steps, Mrg.step]
    dsimp only
    rw [ih]
    decide

/-! ### Clones, branches and what is stored -/

/-- C95: the clone of a generator that has drawn nothing, and is not a precise one, is that generator. -/
theorem C95_clone {k : Kind} {seed : Int} {d : Nat} {p : Pseudo} (h : newPseudo k seed d false = some p) : p.clone = some p := by
  unfold newPseudo at h
  cases k with
  | IRN =>
    dsimp only at h
    have h' := h
    unfold newIrn at h
    rw [Option.map_eq_some_iff] at h
    obtain ⟨s, _, rfl⟩ := h
    unfold Pseudo.clone
    dsimp only
    rw [List.length_replicate]
    exact h'
  | MRG32 =>
    dsimp only at h
    split at h
    · cases h
      unfold Pseudo.clone newMrg
      dsimp only
      rw [List.length_replicate]
    · cases h

private theorem clone_fill {d : Nat} {p p' : Pseudo} {l : List Rat} (hd : p.cache.length = d) (h : p.fillUniform d = some (l, p')) :
    p'.clone = p.clone := by
  have hs : p'.cache.length = p.cache.length := by
    have : RsgObject.getUniform d 1 p = some ([l], p') := by
      rw [RsgObject.getUniform, h]
      rfl
    rw [uniform_size 1 this hd, hd]
  have hgen : ∀ (n : Nat) (g g' : Gen) (l : List Rat), draws n g = some (l, g') →
      (∃ seed s s', g = .irn seed s ∧ g' = .irn seed s') ∨ ∃ a b s s', g = .mrg a b s ∧ g' = .mrg a b s' := by
    intro n
    induction n with
    | zero =>
      intro g g' l h
      cases h
      cases g with
      | irn seed s => exact Or.inl ⟨_, _, _, rfl, rfl⟩
      | mrg a b s => exact Or.inr ⟨_, _, _, _, rfl, rfl⟩
    | succ n ih =>
      intro g g' l h
      rw [draws, Option.bind_eq_some_iff] at h
      obtain ⟨r, hr, h⟩ := h
      rw [Option.map_eq_some_iff] at h
      obtain ⟨q, hq, h⟩ := h
      cases h
      cases g with
      | irn seed s =>
        rw [Gen.next, Option.map_eq_some_iff] at hr
        obtain ⟨w, _, rfl⟩ := hr
        rcases ih _ _ _ hq with ⟨seed', s1, s2, h1, h2⟩ | ⟨_, _, _, _, h1, _⟩
        · cases h1; exact Or.inl ⟨_, _, _, rfl, h2⟩
        · cases h1
      | mrg a b s =>
        rw [Gen.next] at hr
        cases hr
        rcases ih _ _ _ hq with ⟨seed', s1, s2, h1, _⟩ | ⟨_, _, _, _, h1, h2⟩
        · cases h1
        · cases h1; exact Or.inr ⟨_, _, _, _, rfl, h2⟩
  unfold Pseudo.fillUniform at h
  split at h
  · cases h
  · split at h
    · cases h; rfl
    · rw [Option.map_eq_some_iff] at h
      obtain ⟨w, hw, h⟩ := h
      cases h
      unfold Pseudo.clone
      dsimp only at hs ⊢
      rw [hs]
      rcases hgen _ _ _ _ hw with ⟨seed, s1, s2, h1, h2⟩ | ⟨a, b, s1, s2, h1, h2⟩
      · rw [h1, h2]
      · rw [h1, h2]

/-- C95, not so: the clone of a generator that has drawn numbers starts again from the first of them. -/
theorem C95_clone_violated {k : Kind} {seed : Int} {d : Nat} {p : Pseudo} (h : newPseudo k seed d false = some p) (n : Nat) :
    ∃ rows p', RsgObject.getUniform d n p = some (rows, p') ∧ p'.clone = some p := by
  obtain ⟨hg, hat⟩ := new_good h
  obtain ⟨p', h1, _⟩ := at_rows hg n hat
  refine ⟨_, p', h1, ?_⟩
  have key : ∀ (n : Nat) (p p' : Pseudo) (l : List (List Rat)), RsgObject.getUniform d n p = some (l, p') → p.cache.length = d → p'.clone = p.clone := by
    intro n
    induction n with
    | zero => intro p p' l h _; cases h; rfl
    | succ n ih =>
      intro p p' l h hd
      rw [RsgObject.getUniform, Option.bind_eq_some_iff] at h
      obtain ⟨r, hr, h⟩ := h
      rw [Option.map_eq_some_iff] at h
      obtain ⟨q, hq, h⟩ := h
      cases h
      have hsz : r.2.cache.length = d := by
        have : RsgObject.getUniform d 1 p = some ([r.1], r.2) := by
          rw [RsgObject.getUniform, hr]
          rfl
        exact uniform_size 1 this hd
      rw [ih _ _ _ hq hsz, clone_fill hd hr]
  rw [key n p p' _ h1 hat.size]
  exact C95_clone h

/-- C95, not so: the clone of a precise generator is not precise. -/
theorem C95_precise_violated {k : Kind} {seed : Int} {d : Nat} {p : Pseudo} (h : newPseudo k seed d true = some p) :
    p.precise = true ∧ ∃ c, p.clone = some c ∧ c.precise = false := by
  refine ⟨(new_good h).2.precise, ?_⟩
  unfold newPseudo at h
  cases k with
  | IRN =>
    dsimp only at h
    unfold newIrn at h
    rw [Option.map_eq_some_iff] at h
    obtain ⟨s, hs, rfl⟩ := h
    refine ⟨⟨.irn seed s, List.replicate d 0, false, false⟩, ?_, rfl⟩
    unfold Pseudo.clone newIrn
    dsimp only
    rw [hs, List.length_replicate]
    rfl
  | MRG32 =>
    dsimp only at h
    split at h
    · cases h
      exact ⟨_, rfl, rfl⟩
    · cases h

/-- C95, not so: all the branches of a generator are the same, and all generators of the second kind have the same branches. -/
theorem C95_branch_violated (p : Pseudo) (i j : Int) : p.branch i = p.branch j ∧
    ∀ (a b : Nat) (s : Mrg) (q : Pseudo), p.gen = .mrg a b s → (∃ a' b' s', q.gen = .mrg a' b' s') → p.branch i = q.branch j := by
  refine ⟨rfl, ?_⟩
  rintro a b s q h ⟨a', b', s', h'⟩
  unfold Pseudo.branch
  rw [h, h']

/-- C95, not so: what is stored of an object does not depend on the numbers drawn, so that the object read back starts again. -/
theorem C95_stored_violated {sgn : Bool} {name : Str} {seed nDim : Int} {pr : Bool} {o : Obj} (h : newObj sgn name seed nDim pr = some o) (n : Nat) :
    ∃ rows o', o.getUniform n = some (rows, o') ∧ newObj sgn o'.write.1 o'.write.2.1 o'.write.2.2.1 o'.write.2.2.2 = some o := by
  obtain ⟨u, _, hu⟩ := C95_rows h
  obtain ⟨o', h1, _⟩ := hu n
  obtain ⟨_, k, p, _, _, rfl⟩ := obj_new h
  refine ⟨_, o', h1, ?_⟩
  unfold Obj.getUniform at h1
  rw [Option.map_eq_some_iff] at h1
  obtain ⟨r, _, h1⟩ := h1
  have h2 := congrArg Prod.snd h1
  dsimp only at h2
  rw [← h2]
  exact h

/-- C95, not so: the same call on the same object, twice, gives different numbers. -/
theorem C95_pure_violated : ∃ o rows o' rows' o'', newObj true "MRG32".toList 1 1 false = some o ∧ o.getUniform 1 = some (rows, o') ∧
    o'.getUniform 1 = some (rows', o'') ∧ rows ≠ rows' := by
  refine ⟨_, _, _, _, _, rfl, rfl, rfl, ?_⟩
  decide +kernel

/-! ### The hypotheses hold -/

example : (newObj true "mrg_32".toList 7 2 false).isSome = true :=
  (C95_names true _ (by unfold Ascii; decide) 7 2 false).2 ⟨by decide, Or.inr ⟨Or.inl (by decide), by decide⟩⟩
example : uniformRow (fun k => 1 / (k + 2)) 2 1 = [1 / 2, 2 / 3] := by decide +kernel

end Dal

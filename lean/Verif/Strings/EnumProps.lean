import Verif.Strings.EnumTables
import Verif.Strings.StringProps

/-!
# C67: enumerated types as text

Specification: a text names a value exactly if it is one of the texts of the table once blanks, tabs and underscores are dropped and letters are made
capitals.
-/

namespace Dal

open Dal.Strings

private theorem upper_ascii {s : Str} (h : Ascii s) : Ascii (condensed s) := by
  intro c hc
  obtain ⟨d, hd, rfl⟩ := List.mem_map.1 hc
  have hd' := h d (List.mem_of_mem_filter hd)
  have : ∀ k : Fin 128, (Char.ofNat k.1).toUpper.toNat < 128 := by decide +kernel
  simpa using this ⟨d.toNat, hd'⟩

private instance (s : Str) : Decidable (Ascii s) := inferInstanceAs (Decidable (∀ c ∈ s, c.toNat < 128))

/-- What makes a table sound: the texts are condensed, ASCII, not empty, and each occurs once. -/
private def Sound (t : EnumTable) : Prop :=
  (∀ e ∈ t.reads, Ascii e.1 ∧ condensed e.1 = e.1 ∧ e.1 ≠ [] ∧ e.2 ∈ t.values) ∧ (t.reads.map Prod.fst).Nodup

private instance (t : EnumTable) : Decidable (Sound t) := inferInstanceAs (Decidable (_ ∧ _))

private theorem all_sound : ∀ t ∈ allTables, Sound t := by decide +kernel

private theorem chain_iff (sgn : Bool) (s : Str) (hs : Ascii s) (v : Str) : ∀ es : List (Str × Str), (∀ e ∈ es, Ascii e.1 ∧ condensed e.1 = e.1) →
    (es.map Prod.fst).Nodup → (readChain sgn s es = some v ↔ (condensed s, v) ∈ es) := by
  intro es
  induction es with
  | nil => intro _ _; exact ⟨fun h => (by cases h), fun h => absurd h List.not_mem_nil⟩
  | cons e es ih =>
    intro h hn
    rw [List.map_cons, List.nodup_cons] at hn
    have ih' := ih (fun e' he' => h e' (List.mem_cons_of_mem _ he')) hn.2
    have hq := C16_equivalent_condensed sgn s e.1 hs (h e List.mem_cons_self).1 (h e List.mem_cons_self).2
    rw [readChain]
    by_cases he : equivalent sgn s e.1 = true
    · rw [if_pos he]
      have hc := hq.1 he
      refine ⟨fun hv => ?_, fun hv => ?_⟩
      · rw [hc, ← Option.some.inj hv]; exact List.mem_cons_self
      · rcases List.mem_cons.1 hv with hv | hv
        · rw [← hv]
        · exact absurd (List.mem_map.2 ⟨_, hv, hc⟩) hn.1
    · rw [if_neg he, ih']
      refine ⟨fun hv => List.mem_cons_of_mem _ hv, fun hv => ?_⟩
      rcases List.mem_cons.1 hv with hv | hv
      · exact absurd (hq.2 (by rw [← hv])) he
      · exact hv

/-- C67: in every enumerated type, an ASCII text names a value exactly if its condensed form is in the table for it. -/
theorem C67_reads_iff (sgn : Bool) (t : EnumTable) (ht : t ∈ allTables) (s : Str) (hs : Ascii s) (v : Str) :
    readEnum sgn t s = some v ↔ (condensed s, v) ∈ t.reads := by
  obtain ⟨h1, h2⟩ := all_sound t ht
  have h := chain_iff sgn s hs v t.reads (fun e he => ⟨(h1 e he).1, (h1 e he).2.1⟩) h2
  unfold readEnum
  by_cases h0 : s = []
  · rw [if_pos h0]
    refine ⟨fun h => (by cases h), fun h => ?_⟩
    rw [h0] at h
    exact absurd rfl (h1 _ h).2.2.1
  · rw [if_neg h0]; exact h

/-- C67: no text outside ASCII names a value. -/
theorem C67_foreign (sgn : Bool) (t : EnumTable) (ht : t ∈ allTables) (s : Str) (hb : Bytes s) (hs : ¬ Ascii s) : readEnum sgn t s = none := by
  have hsv : ∀ c : Char, 128 ≤ c.toNat → c.toNat < 256 → sortVal sgn c < 0 ∨ 128 ≤ sortVal sgn c := by
    intro c h1 h2
    unfold sortVal
    have : ((if c.toNat ≥ 128 then 128 else 0) + ciOrder c.toNat : Nat) ≥ 128 := by rw [if_pos h1]; omega
    have hlt : ciOrder c.toNat < 128 := by
      have : ∀ k : Fin 128, ciOrder k.1 < 128 := by decide +kernel
      have h3 : ciOrder (c.toNat % 128) < 128 := this ⟨c.toNat % 128, Nat.mod_lt _ (by decide)⟩
      have h4 : ciOrder (c.toNat % 128) = ciOrder c.toNat := by unfold ciOrder; congr 1; exact Nat.mod_mod _ _
      omega
    dsimp only
    rw [if_pos h1]
    split
    · left; omega
    · right; omega
  have hsa : ∀ c : Char, c.toNat < 128 → 0 ≤ sortVal sgn c ∧ sortVal sgn c < 128 := by
    intro c hc
    have : ∀ k : Fin 128, 0 ≤ sortVal sgn (Char.ofNat k.1) ∧ sortVal sgn (Char.ofNat k.1) < 128 := by cases sgn <;> decide +kernel
    simpa using this ⟨c.toNat, hc⟩
  have heq : ∀ (l r : Str), Bytes l → Ascii r → equivalent sgn l r = true → Ascii l := by
    intro l
    induction l with
    | nil => intro r _ _ _ c hc; exact absurd hc List.not_mem_nil
    | cons c l ih =>
      intro r hl hr h
      rw [equivalent.eq_def] at h
      dsimp only at h
      have hl' : Bytes l := fun d hd => hl d (List.mem_cons_of_mem _ hd)
      by_cases hf : isFluff c = true
      · rw [if_pos hf] at h
        have := ih r hl' hr h
        intro d hd
        rcases List.mem_cons.1 hd with rfl | hd
        · have hf' : d = ' ' ∨ d = '\t' ∨ d = '_' := by unfold isFluff at hf; simpa [or_assoc] using hf
          rcases hf' with rfl | rfl | rfl <;> decide
        · exact this d hd
      · rw [if_neg hf] at h
        cases r with
        | nil => cases h
        | cons d r =>
          dsimp only at h
          by_cases hv : sortVal sgn c = sortVal sgn d
          · rw [if_pos hv] at h
            have := ih r hl' (fun x hx => hr x (List.mem_cons_of_mem _ hx)) h
            intro x hx
            rcases List.mem_cons.1 hx with rfl | hx
            · by_contra hc
              have h1 := hsv x (by omega) (hl x List.mem_cons_self)
              have h2 := hsa d (hr d List.mem_cons_self)
              rw [hv] at h1
              omega
            · exact this x hx
          · rw [if_neg hv] at h; cases h
  have hchain : ∀ es : List (Str × Str), (∀ e ∈ es, Ascii e.1) → readChain sgn s es = none := by
    intro es
    induction es with
    | nil => intro _; rfl
    | cons e es ih =>
      intro h
      rw [readChain, if_neg (fun hc => hs (heq s e.1 hb (h e List.mem_cons_self) hc)), ih fun e' he' => h e' (List.mem_cons_of_mem _ he')]
  unfold readEnum
  split
  · rfl
  · exact hchain _ fun e he => ((all_sound t ht).1 e he).1

/-- C67: capitals, blanks, tabs and underscores do not matter. -/
theorem C67_insensitive (sgn : Bool) (t : EnumTable) (ht : t ∈ allTables) (s s' : Str) (hs : Ascii s) (hs' : Ascii s') (h : condensed s = condensed s') :
    readEnum sgn t s = readEnum sgn t s' := by
  refine Option.ext fun v => ?_
  rw [C67_reads_iff sgn t ht s hs v, C67_reads_iff sgn t ht s' hs' v, h]

private theorem tables_print : ∀ t ∈ allTables, ∀ v ∈ t.values, ∃ p ∈ t.printed.map Prod.snd, printEnum t v = some p ∧ Ascii p ∧ (condensed p, v) ∈ t.reads := by
  decide +kernel

/-- C67: reading the text that is printed for a value gives the value. -/
theorem C67_roundtrip (sgn : Bool) (t : EnumTable) (ht : t ∈ allTables) (v : Str) (hv : v ∈ t.values) :
    ∃ p, printEnum t v = some p ∧ readEnum sgn t p = some v := by
  obtain ⟨p, _, h1, h2, h3⟩ := tables_print t ht v hv
  exact ⟨p, h1, (C67_reads_iff sgn t ht p h2 v).2 h3⟩

/-- C67: distinct values are printed differently, even but for capitals, blanks, tabs and underscores. -/
theorem C67_print_injective (t : EnumTable) (ht : t ∈ allTables) (v w p q : Str) (hv : v ∈ t.values) (hw : w ∈ t.values)
    (hp : printEnum t v = some p) (hq : printEnum t w = some q) (h : condensed p = condensed q) : v = w := by
  obtain ⟨p', _, h1, h2, h3⟩ := tables_print t ht v hv
  obtain ⟨q', _, h4, h5, h6⟩ := tables_print t ht w hw
  rw [hp] at h1; rw [hq] at h4
  rw [← Option.some.inj h1] at h2 h3
  rw [← Option.some.inj h4] at h5 h6
  have e1 := (C67_reads_iff true t ht p h2 v).2 h3
  have e2 := (C67_reads_iff true t ht p h2 w).2 (by rw [h]; exact h6)
  rw [e1] at e2
  exact Option.some.inj e2

/-- C67: what is read is a value. -/
theorem C67_value (sgn : Bool) (t : EnumTable) (ht : t ∈ allTables) (s : Str) (hs : Ascii s) (v : Str) (h : readEnum sgn t s = some v) : v ∈ t.values :=
  ((all_sound t ht).1 _ ((C67_reads_iff sgn t ht s hs v).1 h)).2.2.2

/-- C67: the list of all values is the list of the values. -/
theorem C67_listed (sgn : Bool) : ∀ t ∈ allTables, listAll sgn t = some t.values ∧ t.values.Nodup := by
  cases sgn <;> decide +kernel

/-! ### Extensions of day counts -/

/-- C67: whether a registration is accepted or not, whatever text was recognised before keeps its meaning. -/
theorem C67_register_keeps (sgn : Bool) (t : EnumTable) (names : List Str) (imp : Ext) (r : ExtReg) (s : Str) (v : ExtValue)
    (h : readExt sgn t r s = some v) : readExt sgn t (register sgn t names imp r).2 s = some v := by
  have hnames : ∀ (names : List Str) (r : ExtReg), readExt sgn t r s = some v → readExt sgn t (registerNames sgn t imp names r).2 s = some v := by
    intro names
    induction names with
    | nil => intro r h; exact h
    | cons n ns ih =>
      intro r h
      rw [registerNames]
      by_cases hf : fresh sgn t r n = true
      · rw [if_pos hf]
        apply ih
        unfold readExt at h ⊢
        cases hr : readEnum sgn t s with
        | some w => rw [hr] at h; exact h
        | none =>
          rw [hr] at h
          dsimp only at h ⊢
          have hne : (condensed s == condensed n) = false := by
            rw [beq_eq_false_iff_ne]
            intro hc
            unfold fresh at hf
            rw [Bool.and_eq_true, Option.isNone_iff_eq_none, Option.isNone_iff_eq_none, ← hc] at hf
            rw [hf.2] at h
            cases h
          rw [List.lookup_cons, hne]
          exact h
      · rw [if_neg hf]; exact h
  unfold register
  split
  · exact h
  · split
    · have := hnames names r h
      split
      · rename_i heq; rw [heq] at this; exact this
      · rename_i heq
        rw [heq] at this
        split <;> exact this
    · exact h

private theorem names_inv (sgn : Bool) (t : EnumTable) (imp : Ext) : ∀ (names : List Str) (r r' : ExtReg), registerNames sgn t imp names r = (true, r') →
    (∀ n ∈ names, readExt sgn t r' n = some (.extension imp)) ∧
    ∀ s, readExt sgn t r' s = readExt sgn t r s ∨ (readExt sgn t r' s = some (.extension imp)) := by
  intro names
  induction names with
  | nil =>
    intro r r' h
    rw [registerNames] at h
    cases h
    exact ⟨fun n hn => absurd hn List.not_mem_nil, fun s => Or.inl rfl⟩
  | cons n ns ih =>
    intro r r' h
    rw [registerNames] at h
    by_cases hf : fresh sgn t r n = true
    · rw [if_pos hf] at h
      obtain ⟨h1, h2⟩ := ih _ _ h
      have hn : readExt sgn t { r with exts := (condensed n, imp) :: r.exts } n = some (.extension imp) := by
        unfold fresh at hf
        rw [Bool.and_eq_true, Option.isNone_iff_eq_none] at hf
        unfold readExt
        rw [hf.1]
        dsimp only
        rw [List.lookup_cons, beq_self_eq_true]
        rfl
      refine ⟨fun m hm => ?_, fun s => ?_⟩
      · rcases List.mem_cons.1 hm with rfl | hm
        · rcases h2 m with h3 | h3
          · rw [h3, hn]
          · exact h3
        · exact h1 m hm
      · rcases h2 s with h3 | h3
        · rw [h3]
          unfold readExt
          cases readEnum sgn t s with
          | some w => exact Or.inl rfl
          | none =>
            dsimp only
            rw [List.lookup_cons]
            cases condensed s == condensed n with
            | true => exact Or.inr rfl
            | false => exact Or.inl rfl
        · exact Or.inr h3
    · rw [if_neg hf] at h; cases h

/-- C67: after a registration that is accepted, each of the names means the extension, and so does the text it prints; every other text means what it did
before or the extension. -/
theorem C67_register_new (sgn : Bool) (t : EnumTable) (names : List Str) (imp : Ext) (r r' : ExtReg) (h : register sgn t names imp r = (true, r')) :
    (∀ n ∈ names, readExt sgn t r' n = some (.extension imp)) ∧ readExt sgn t r' imp.text = some (.extension imp) ∧
    (printExt t (.extension imp) = some imp.text) ∧ (∀ s, readExt sgn t r' s = readExt sgn t r s ∨ readExt sgn t r' s = some (.extension imp)) ∧
    r.enumerated = false := by
  unfold register at h
  split at h
  · cases h
  · rename_i hen
    split at h
    · rename_i hfr
      split at h
      · cases h
      · rename_i r1 heq
        obtain ⟨h1, h2⟩ := names_inv sgn t imp names r r1 heq
        have hr : readExt sgn t r imp.text = none := by
          unfold fresh at hfr
          rw [Bool.and_eq_true, Option.isNone_iff_eq_none, Option.isNone_iff_eq_none] at hfr
          unfold readExt
          rw [hfr.1]
          dsimp only
          rw [hfr.2]
          rfl
        split at h
        · cases h
        · rename_i check hch
          have hr' : r1 = r' := (Prod.mk.inj h).2
          rw [hr'] at h1 h2 hch
          refine ⟨h1, ?_, rfl, h2, by simpa using hen⟩
          rcases h2 imp.text with h3 | h3
          · rw [hr, hch] at h3; cases h3
          · exact h3
    · cases h

/-- C67: a registration is refused, and changes nothing, if the values have been listed before or if the text of the extension already has a meaning. -/
theorem C67_register_refused (sgn : Bool) (t : EnumTable) (names : List Str) (imp : Ext) (r : ExtReg)
    (h : r.enumerated = true ∨ readExt sgn t r imp.text ≠ none) : register sgn t names imp r = (false, r) := by
  unfold register
  rcases h with h | h
  · rw [if_pos h]
  · split
    · rfl
    · rw [if_neg]
      intro hf
      unfold fresh at hf
      rw [Bool.and_eq_true, Option.isNone_iff_eq_none, Option.isNone_iff_eq_none] at hf
      apply h
      unfold readExt
      rw [hf.1]
      dsimp only
      rw [hf.2]
      rfl

/-- C67: a registration with a name that already has a meaning is refused. -/
theorem C67_register_duplicate (sgn : Bool) (t : EnumTable) (names : List Str) (imp : Ext) (r : ExtReg) (n : Str) (hn : n ∈ names)
    (h : readExt sgn t r n ≠ none) (hne : readExt sgn t r n ≠ some (.extension imp)) : (register sgn t names imp r).1 = false := by
  by_contra hc
  obtain ⟨b, r', hr⟩ : ∃ b r', register sgn t names imp r = (b, r') := ⟨_, _, rfl⟩
  rw [hr] at hc
  have hb : b = true := by cases b <;> simp_all
  rw [hb] at hr
  have h1 := (C67_register_new sgn t names imp r r' hr).1 n hn
  cases hv : readExt sgn t r n with
  | none => exact h hv
  | some v =>
    have := C67_register_keeps sgn t names imp r n v hv
    rw [hr, h1] at this
    rw [← this] at hv
    exact hne hv

/-- C67 fails for refused registrations: one whose names lack the text of the extension is refused, and yet its names have the meaning afterwards. -/
theorem C67_register_partial_violated : ∃ (names : List Str) (imp : Ext) (n : Str),
    (register true dayBasisTable names imp ⟨[], false⟩).1 = false ∧ readExt true dayBasisTable ⟨[], false⟩ n = none ∧
    readExt true dayBasisTable (register true dayBasisTable names imp ⟨[], false⟩).2 n = some (.extension imp) :=
  ⟨["BUS/252".toList], ⟨1, "BUSINESS252".toList⟩, "bus/252".toList, by decide +kernel, by decide +kernel, by decide +kernel⟩

/-- C67 fails for equality: any two extensions are equal, though they print differently. -/
theorem C67_ext_equal_violated : (∀ e f : Ext, eqExt (.extension e) (.extension f) = true) ∧
    ∃ e f : Ext, printExt dayBasisTable (.extension e) ≠ printExt dayBasisTable (.extension f) ∧ eqExt (.extension e) (.extension f) = true :=
  ⟨fun _ _ => rfl, ⟨1, "A".toList⟩, ⟨2, "B".toList⟩, by decide +kernel, rfl⟩

/-! ### The hypotheses hold -/

example : Ascii " act_365 f".toList ∧ readEnum true dayBasisTable " act_365 f".toList = some "ACT_365F".toList := by decide +kernel

example : Bytes "é".toList ∧ ¬ Ascii "é".toList := by
  refine ⟨?_, ?_⟩
  · unfold Bytes; decide +kernel
  · decide +kernel

example : (register true dayBasisTable ["BUS252".toList] ⟨1, "BUS_252".toList⟩ ⟨[], false⟩).1 = true := by decide +kernel

example : readExt true dayBasisTable ⟨[], false⟩ "bond".toList = some (.fixed "BOND".toList) := by decide +kernel

end Dal

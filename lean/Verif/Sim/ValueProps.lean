import Verif.Sim.ValueModel
import Verif.Strings.StringProps
import Verif.Strings.SettingsProps
import Verif.Time.DateProps
import Mathlib.Tactic.SplitIfs
import Mathlib.Tactic.Ring

/-! # C96: the table of a valuation and products from sheets -/

namespace Dal
open Strings Date Dict Settings Script.Events Valued

variable {V K : Type}

private abbrev Sorted (sgn : Bool) (m : List (Str × V)) : Prop := m.Pairwise fun a b => ltS sgn a.1 b.1 = true

private theorem eq_false (sgn : Bool) {a b : Str} (h : ltS sgn a b = true) : eqS sgn a b = false := by
  rcases C15_lt_total sgn a b with g | g | g
  · exact g.2.1
  · rw [g.1] at h; cases h
  · exact g.2.1

private theorem eq_comm' (sgn : Bool) (a b : Str) : eqS sgn a b = eqS sgn b a := by
  rw [Bool.eq_iff_iff, eqS_iff_map, eqS_iff_map, eq_comm]

private theorem assign_fresh (sgn : Bool) (k : Str) (v : V) (m : List (Str × V)) (h : ∀ e ∈ m, eqS sgn k e.1 = false) :
    (mapAssign sgn k v m).Perm ((k, v) :: m) := by
  induction m with
  | nil => exact .refl _
  | cons e m ih =>
    simp only [mapAssign]
    split_ifs with h1 h2
    · exact .refl _
    · exact ((ih fun x hx => h x (by simp [hx])).cons e).trans (.swap _ _ _)
    · have := (mapFind_iff (V := V) sgn k e.1).1 ⟨h1, h2⟩
      rw [h e (by simp)] at this
      cases this

private theorem assign_keys (sgn : Bool) (k : Str) (v : V) (m : List (Str × V)) : ∀ e ∈ mapAssign sgn k v m, e.1 = k ∨ ∃ e' ∈ m, e'.1 = e.1 := by
  induction m with
  | nil => simp [mapAssign]
  | cons e m ih =>
    intro x hx
    simp only [mapAssign] at hx
    split_ifs at hx
    · rcases List.mem_cons.1 hx with rfl | hx
      · exact Or.inl rfl
      · exact Or.inr ⟨x, hx, rfl⟩
    · rcases List.mem_cons.1 hx with rfl | hx
      · exact Or.inr ⟨_, by simp, rfl⟩
      · rcases ih x hx with h | ⟨e', h, h'⟩
        · exact Or.inl h
        · exact Or.inr ⟨e', by simp [h], h'⟩
    · rcases List.mem_cons.1 hx with rfl | hx
      · exact Or.inr ⟨e, by simp, rfl⟩
      · exact Or.inr ⟨x, by simp [hx], rfl⟩

private theorem assign_sorted (sgn : Bool) (k : Str) (v : V) (m : List (Str × V)) (h : Sorted sgn m) : Sorted sgn (mapAssign sgn k v m) := by
  induction m with
  | nil => simp [mapAssign, Sorted]
  | cons e m ih =>
    rw [Sorted, List.pairwise_cons] at h
    simp only [mapAssign]
    split_ifs with h1 h2
    · refine List.pairwise_cons.2 ⟨fun x hx => ?_, List.pairwise_cons.2 h⟩
      rcases List.mem_cons.1 hx with rfl | hx
      · exact h1
      · exact C15_lt_trans sgn h1 (h.1 x hx)
    · refine List.pairwise_cons.2 ⟨fun x hx => ?_, ih h.2⟩
      rcases assign_keys sgn k v m x hx with hk | ⟨e', he, hk⟩
      · show ltS sgn e.1 x.1 = true
        rw [hk]; exact h2
      · show ltS sgn e.1 x.1 = true
        rw [← hk]; exact h.1 e' he
    · exact List.pairwise_cons.2 h

private theorem find_lt (sgn : Bool) (k : Str) (m : List (Str × V)) (h : ∀ e ∈ m, ltS sgn k e.1 = true) : Strings.mapFind sgn k m = none := by
  induction m with
  | nil => rfl
  | cons e m ih => rw [Strings.mapFind, if_neg (by simp [h e (by simp)])]; exact ih fun x hx => h x (by simp [hx])

private theorem find_assign (sgn : Bool) (k : Str) (v : V) (k' : Str) (m : List (Str × V)) (h : Sorted sgn m) :
    Strings.mapFind sgn k' (mapAssign sgn k v m) = if eqS sgn k' k = true then some v else Strings.mapFind sgn k' m := by
  induction m with
  | nil => simp only [mapAssign, Strings.mapFind, mapFind_iff (V := V)]
  | cons e m ih =>
    rw [Sorted, List.pairwise_cons] at h
    simp only [mapAssign]
    split_ifs with h1 h3 h2 h3 h3
    · simp only [Strings.mapFind, mapFind_iff (V := V), if_pos h3]
    · simp only [Strings.mapFind, mapFind_iff (V := V), if_neg h3]
    · simp only [Strings.mapFind, mapFind_iff (V := V), ih h.2, if_pos h3]
      rw [if_neg]
      intro he
      have := C15_lt_congr sgn ((C15_eq_equivalence sgn).refl e.1) ((C15_eq_equivalence sgn).symm h3)
      rw [h2] at this
      have := eq_false sgn this.symm
      rw [eq_comm', he] at this
      cases this
    · simp only [Strings.mapFind, mapFind_iff (V := V), ih h.2, if_neg h3]
    · have hk := (mapFind_iff (V := V) sgn k e.1).1 ⟨h1, h2⟩
      simp only [Strings.mapFind, mapFind_iff (V := V)]
      rw [if_pos ((C15_eq_equivalence sgn).trans h3 hk)]
    · have hk := (mapFind_iff (V := V) sgn k e.1).1 ⟨h1, h2⟩
      simp only [Strings.mapFind, mapFind_iff (V := V)]
      have : ¬ eqS sgn k' e.1 = true := fun he => h3 ((C15_eq_equivalence sgn).trans he ((C15_eq_equivalence sgn).symm hk))
      rw [if_neg this, if_neg this]

/-- The place of the last name equal to `x` ignoring case. -/
def lastPlace (sgn : Bool) (names : List Str) (x : Str) (i : Nat) : Prop :=
  (∃ h : i < names.length, eqS sgn x names[i] = true) ∧ ∀ j (h : j < names.length), eqS sgn x names[j] = true → j ≤ i

private theorem places_spec (sgn : Bool) (names : List Str) : Sorted sgn (places sgn names) ∧
    ∀ x i, Strings.mapFind sgn x (places sgn names) = some i ↔ lastPlace sgn names x i := by
  induction names using List.reverseRecOn with
  | nil => exact ⟨List.Pairwise.nil, fun x i => by simp [places, Strings.mapFind, lastPlace]⟩
  | append_singleton ns n ih =>
    have e : places sgn (ns ++ [n]) = mapAssign sgn n ns.length (places sgn ns) := by
      simp [places, List.zipIdx_append, List.foldl_append]
    rw [e]
    refine ⟨assign_sorted _ _ _ _ ih.1, fun x i => ?_⟩
    rw [find_assign _ _ _ _ _ ih.1]
    split_ifs with h
    · constructor
      · intro hi
        obtain rfl := Option.some.inj hi
        refine ⟨⟨by simp, by simpa using h⟩, fun j hj _ => ?_⟩
        simp at hj; omega
      · rintro ⟨⟨h1, _⟩, h2⟩
        have := h2 ns.length (by simp) (by simpa using h)
        simp at h1
        congr 1; omega
    · rw [ih.2 x i]
      constructor
      · rintro ⟨⟨h1, h2⟩, h3⟩
        refine ⟨⟨by simp; omega, by rw [List.getElem_append_left h1]; exact h2⟩, fun j hj hx => ?_⟩
        by_cases hj' : j < ns.length
        · rw [List.getElem_append_left hj'] at hx
          exact h3 j hj' hx
        · have : j = ns.length := by simp at hj; omega
          subst this
          simp at hx
          exact absurd hx h
      · rintro ⟨⟨h1, h2⟩, h3⟩
        have hi : i < ns.length := by
          by_contra hc
          have : i = ns.length := by simp at h1; omega
          subst this
          simp at h2
          exact absurd h2 h
        rw [List.getElem_append_left hi] at h2
        refine ⟨⟨hi, h2⟩, fun j hj hx => h3 j (by simp; omega) (by rw [List.getElem_append_left hj]; exact hx)⟩

/-- C96, risks by name: reading a risk by a name gives the risk of the last name equal to it ignoring case. -/
theorem C96_risk (sgn : Bool) (names : List Str) (risks : List K) (hlen : risks.length = names.length) (x : Str) (i : Nat) (h : lastPlace sgn names x i) :
    riskOf sgn names risks x = some (risks[i]'(by have := h.1.1; omega)) := by
  rw [riskOf, ((places_spec sgn names).2 x i).2 h, Option.bind_some, List.getElem?_eq_getElem]

private theorem last_exists (sgn : Bool) (names : List Str) (x : Str) (h : ∃ n ∈ names, eqS sgn x n = true) : ∃ i, lastPlace sgn names x i := by
  cases hf : Strings.mapFind sgn x (places sgn names) with
  | some i => exact ⟨i, ((places_spec sgn names).2 x i).1 hf⟩
  | none =>
    exfalso
    induction names using List.reverseRecOn with
    | nil => simp at h
    | append_singleton ns n ih =>
      have e : places sgn (ns ++ [n]) = mapAssign sgn n ns.length (places sgn ns) := by
        simp [places, List.zipIdx_append, List.foldl_append]
      rw [e, find_assign _ _ _ _ _ (places_spec sgn ns).1] at hf
      split_ifs at hf with hx
      refine ih ?_ hf
      obtain ⟨m, hm, hxm⟩ := h
      rcases List.mem_append.1 hm with hm | hm
      · exact ⟨m, hm, hxm⟩
      · simp at hm; subst hm; exact absurd hxm hx

example : lastPlace true ["spot".toList, "vol".toList, "SPOT".toList] "Spot".toList 2 := by
  refine ⟨⟨by decide, by decide +kernel⟩, fun j hj _ => ?_⟩
  simp at hj; omega

private theorem prefix_eq (sgn : Bool) (a b : Str) : eqS sgn ("d_".toList ++ a) ("d_".toList ++ b) = eqS sgn a b := by
  rw [Bool.eq_iff_iff, eqS_iff_map, eqS_iff_map, List.map_append, List.map_append, List.append_cancel_left_eq]

private theorem prefix_pv (sgn : Bool) (a : Str) : ltS sgn ("d_".toList ++ a) "PV".toList = true := by
  rw [ltS_iff_map]
  have h : sortVal sgn 'd' < sortVal sgn 'P' := by cases sgn <;> decide +kernel
  exact List.Lex.rel h

/-- C96, the table with sensitivities: when names differ ignoring case there is a row for the value and one for each name, the rows are in strictly increasing order, each risk stands
at the name with `d_` in front, and the value comes last. -/
theorem C96_table [DivisionRing K] (sgn : Bool) (ty : Str) (hty : known sgn ty = true) (n : Int) (names : List Str) (sim : Int → Option (K × List K)) (agg : K) (risks : List K)
    (hsim : sim n = some (agg, risks)) (hlen : risks.length = names.length) (hd : names.Pairwise fun a b => eqS sgn a b = false) :
    ∃ t, valueTable sgn ty true n names sim = some t ∧ t.Pairwise (fun a b => ltS sgn a.1 b.1 = true) ∧ t.getLast? = some ("PV".toList, average agg n) ∧
      t.Perm (("PV".toList, average agg n) :: (names.zip risks).map fun e => ("d_".toList ++ e.1, some e.2)) := by
  have hrisk : ∀ e ∈ names.zip risks, riskOf sgn names risks e.1 = some e.2 := by
    intro e he
    obtain ⟨i, hi, rfl⟩ := List.getElem_of_mem he
    have hi' : i < names.length := by simp at hi; omega
    rw [List.getElem_zip]
    refine C96_risk sgn names risks hlen names[i] i ⟨⟨hi', (C15_eq_equivalence sgn).refl _⟩, fun j hj hx => ?_⟩
    by_contra hc
    have := List.pairwise_iff_getElem.1 hd i j hi' hj (by omega)
    rw [hx] at this; cases this
  have key : ∀ (l : List (Str × K)) (m : List (Str × Option K)), Sorted sgn m → (∀ e ∈ l, riskOf sgn names risks e.1 = some e.2) →
      (l.map (·.1)).Pairwise (fun a b => eqS sgn a b = false) → (∀ e ∈ l, ∀ x ∈ m, eqS sgn ("d_".toList ++ e.1) x.1 = false) →
      ∃ t, risksOn sgn names risks (l.map (·.1)) m = some t ∧ Sorted sgn t ∧ t.Perm (m ++ l.map fun e => ("d_".toList ++ e.1, some e.2)) := by
    intro l
    induction l with
    | nil => intro m hm _ _ _; exact ⟨m, rfl, hm, by simp⟩
    | cons e l ih =>
      intro m hm hr hp hx
      rw [List.map_cons, List.pairwise_cons] at hp
      have hfresh := assign_fresh sgn ("d_".toList ++ e.1) (some e.2) m (hx e (by simp))
      obtain ⟨t, h1, h2, h3⟩ := ih (mapAssign sgn ("d_".toList ++ e.1) (some e.2) m) (assign_sorted _ _ _ _ hm) (fun x hx => hr x (by simp [hx])) hp.2 (by
        intro f hf x hxm
        rcases List.mem_cons.1 ((hfresh.mem_iff).1 hxm) with rfl | hxm
        · show eqS sgn ("d_".toList ++ f.1) ("d_".toList ++ e.1) = false
          rw [prefix_eq, eq_comm']
          exact hp.1 f.1 (List.mem_map_of_mem hf)
        · exact hx f (by simp [hf]) x hxm)
      refine ⟨t, ?_, h2, h3.trans ((hfresh.append_right _).trans ?_)⟩
      · rw [List.map_cons, risksOn, hr e (by simp), Option.bind_some]; exact h1
      · rw [List.map_cons, List.cons_append]; exact List.perm_middle.symm
  obtain ⟨t, h1, h2, h3⟩ := key (names.zip risks) [("PV".toList, average agg n)] (List.pairwise_singleton _ _) hrisk
    (by rw [List.map_fst_zip (by omega)]; exact hd) (by
      intro e _ x hx
      rw [List.mem_singleton.1 hx]
      exact eq_false sgn (prefix_pv sgn _))
  rw [List.map_fst_zip (by omega)] at h1
  refine ⟨t, ?_, h2, ?_, h3⟩
  · rw [valueTable, if_pos hty, hsim, Option.bind_some, if_pos rfl]; exact h1
  · have hmem : ("PV".toList, average agg n) ∈ t := h3.mem_iff.2 (by simp)
    have hne : t ≠ [] := List.ne_nil_of_mem hmem
    rw [List.getLast?_eq_some_getLast hne]
    congr 1
    rcases List.mem_append.1 (h3.mem_iff.1 (List.getLast_mem hne)) with hl | hl
    · exact List.mem_singleton.1 hl
    · exfalso
      obtain ⟨e, _, he⟩ := List.mem_map.1 hl
      obtain ⟨i, hi, hv⟩ := List.getElem_of_mem hmem
      have hpv := prefix_pv sgn e.1
      rw [List.getLast_eq_getElem] at he
      have hk : (t[t.length - 1]'(by omega)).1 = "d_".toList ++ e.1 := by rw [← he]
      rw [← hk, show "PV".toList = t[i].1 by rw [hv]] at hpv
      by_cases hil : i < t.length - 1
      · have := List.pairwise_iff_getElem.1 h2 i (t.length - 1) hi (by omega) hil
        have h4 := C15_lt_trans sgn this hpv
        rw [ltS_iff_map] at h4
        exact lt_irrefl _ h4
      · have : i = t.length - 1 := by omega
        subst this
        rw [ltS_iff_map] at hpv
        exact lt_irrefl _ hpv

example : known true "BSModelData_".toList = true ∧ known true "DupireModelData_".toList = true ∧ known true "HullWhite_".toList = false ∧
    ["spot".toList, "vol".toList, "rate".toList, "div".toList].Pairwise (fun a b => eqS true a b = false) := by
  refine ⟨by decide +kernel, by decide +kernel, by decide +kernel, by decide +kernel⟩

/-- C96, the table with sensitivities, whatever the names: the rows are in strictly increasing order, the value is there, and under `d_` and a name stands the risk of the last
name equal to it ignoring case. -/
theorem C96_lookup [DivisionRing K] (sgn : Bool) (ty : Str) (hty : known sgn ty = true) (n : Int) (names : List Str) (sim : Int → Option (K × List K)) (agg : K) (risks : List K)
    (hsim : sim n = some (agg, risks)) (hlen : risks.length = names.length) :
    ∃ t, valueTable sgn ty true n names sim = some t ∧ t.Pairwise (fun a b => ltS sgn a.1 b.1 = true) ∧ Strings.mapFind sgn "PV".toList t = some (average agg n) ∧
      ∀ x i, (h : lastPlace sgn names x i) → Strings.mapFind sgn ("d_".toList ++ x) t = some (some (risks[i]'(by have := h.1.1; omega))) := by
  have key : ∀ (l : List Str) (m : List (Str × Option K)), Sorted sgn m → (∀ x ∈ l, ∃ i, lastPlace sgn names x i) → ∃ t, risksOn sgn names risks l m = some t ∧ Sorted sgn t ∧
      (∀ x, (∀ y ∈ l, eqS sgn x ("d_".toList ++ y) = false) → Strings.mapFind sgn x t = Strings.mapFind sgn x m) ∧
      ∀ x ∈ l, ∀ z, eqS sgn z x = true → Strings.mapFind sgn ("d_".toList ++ z) t = (riskOf sgn names risks z).map some := by
    intro l
    induction l with
    | nil => intro m hm _; exact ⟨m, rfl, hm, fun _ _ => rfl, by simp⟩
    | cons y l ih =>
      intro m hm hl
      obtain ⟨i, hi⟩ := hl y (by simp)
      have hy := C96_risk sgn names risks hlen y i hi
      obtain ⟨t, h1, h2, h3, h4⟩ := ih (mapAssign sgn ("d_".toList ++ y) (some (risks[i]'(by have := hi.1.1; omega))) m) (assign_sorted _ _ _ _ hm) fun x hx => hl x (by simp [hx])
      refine ⟨t, by rw [risksOn, hy, Option.bind_some]; exact h1, h2, fun x hx => ?_, fun x hx z hz => ?_⟩
      · rw [h3 x fun z hz => hx z (by simp [hz]), find_assign _ _ _ _ _ hm, hx y (by simp)]
        rfl
      · by_cases hxl : ∃ w ∈ l, eqS sgn z w = true
        · obtain ⟨w, hw, hzw⟩ := hxl
          exact h4 w hw z hzw
        · have hx' : x = y := by
            rcases List.mem_cons.1 hx with h | h
            · exact h
            · exact absurd ⟨x, h, hz⟩ hxl
          subst hx'
          have hiz : lastPlace sgn names z i := by
            refine ⟨⟨hi.1.1, (C15_eq_equivalence sgn).trans hz hi.1.2⟩, fun j hj hzj => hi.2 j hj ((C15_eq_equivalence sgn).trans ((C15_eq_equivalence sgn).symm hz) hzj)⟩
          rw [h3 _ fun w hw => by rw [prefix_eq, ← Bool.not_eq_true]; exact fun h => hxl ⟨w, hw, h⟩, find_assign _ _ _ _ _ hm, prefix_eq, if_pos hz,
            C96_risk sgn names risks hlen z i hiz]
          rfl
  obtain ⟨t, h1, h2, h3, h4⟩ := key names (mapAssign sgn "PV".toList (average agg n) []) (List.pairwise_singleton _ _)
    fun x hx => last_exists sgn names x ⟨x, hx, (C15_eq_equivalence sgn).refl x⟩
  refine ⟨t, by rw [valueTable, if_pos hty, hsim, Option.bind_some, if_pos rfl]; exact h1, h2, ?_, fun x i h => ?_⟩
  · rw [h3 _ fun y _ => by rw [eq_comm']; exact eq_false sgn (prefix_pv sgn y), mapAssign, Strings.mapFind, if_pos]
    rw [mapFind_iff (V := K)]; exact (C15_eq_equivalence sgn).refl _
  · rw [h4 (names[i]'(h.1.1)) (List.getElem_mem _) x h.1.2, C96_risk sgn names risks hlen x i h]
    rfl

/-- C96, the table without sensitivities: one row with the value. -/
theorem C96_plain [DivisionRing K] (sgn : Bool) (ty : Str) (hty : known sgn ty = true) (n : Int) (hn : n ≠ 0) (names : List Str) (sim : Int → Option (K × List K)) (agg : K)
    (risks : List K) (hsim : sim n = some (agg, risks)) : valueTable sgn ty false n names sim = some [("PV".toList, some (agg / n))] := by
  rw [valueTable, if_pos hty, hsim, Option.bind_some, if_neg (by simp), average, if_neg hn]
  rfl

/-- C96, models: a valuation succeeds only for the two kinds of models and when the simulation does; the two kinds that the library makes are accepted. -/
theorem C96_model [DivisionRing K] (sgn : Bool) (ty : Str) (aad : Bool) (n : Int) (names : List Str) (sim : Int → Option (K × List K)) :
    ((eqS sgn ty "BSModelData_".toList = false ∧ eqS sgn ty "DupireModelData_".toList = false) → valueTable sgn ty aad n names sim = none) ∧
    (sim n = none → valueTable sgn ty aad n names sim = none) ∧
    known sgn "BSModelData_".toList = true ∧ known sgn "DupireModelData_".toList = true := by
  refine ⟨fun h => ?_, fun h => ?_, ?_, ?_⟩
  · rw [valueTable, if_neg]
    simp only [known, List.any_cons, List.any_nil, Bool.or_false, Bool.or_eq_true, not_or, Bool.not_eq_true]
    exact h
  · rw [valueTable, h]
    split_ifs <;> rfl
  · rw [known, List.any_cons, (C15_eq_equivalence sgn).refl]; rfl
  · rw [known, List.any_cons, List.any_cons, (C15_eq_equivalence sgn).refl, Bool.true_or, Bool.or_true]

/-- C96 is violated by names that differ in case only: two parameters, one row with the risk of the second. -/
theorem C96_clash_violated [DivisionRing K] (sgn : Bool) (n : Int) (sim : Int → Option (K × List K)) (agg a b : K) (hsim : sim n = some (agg, [a, b])) :
    valueTable sgn "BSModelData_".toList true n ["spot".toList, "SPOT".toList] sim = some [("d_spot".toList, some b), ("PV".toList, average agg n)] := by
  have h1 : places sgn ["spot".toList, "SPOT".toList] = [("spot".toList, 1)] := by cases sgn <;> decide +kernel
  have h2 : Strings.mapFind sgn "spot".toList [("spot".toList, 1)] = some 1 := by cases sgn <;> decide +kernel
  have h3 : Strings.mapFind sgn "SPOT".toList [("spot".toList, 1)] = some 1 := by cases sgn <;> decide +kernel
  have h4 : ltS sgn ("d_".toList ++ "spot".toList) "PV".toList = true := prefix_pv _ _
  have h5 : ltS sgn ("d_".toList ++ "SPOT".toList) ("d_".toList ++ "spot".toList) = false := by cases sgn <;> decide +kernel
  have h6 : ltS sgn ("d_".toList ++ "spot".toList) ("d_".toList ++ "SPOT".toList) = false := by cases sgn <;> decide +kernel
  rw [valueTable, if_pos (C96_model sgn [] true n [] sim).2.2.1, hsim, Option.bind_some, if_pos rfl]
  simp only [risksOn, riskOf, h1, h2, h3, Option.bind_some, mapAssign, h4, h5, h6, if_true, List.getElem?_cons_succ, List.getElem?_cons_zero]
  rfl

/-- C96 is violated with no paths: there is a table, and its value is not a number. -/
theorem C96_no_paths_violated [DivisionRing K] (sgn : Bool) (ty : Str) (hty : known sgn ty = true) (names : List Str) (sim : Int → Option (K × List K)) (r : K × List K)
    (hsim : sim 0 = some r) : valueTable sgn ty false 0 names sim = some [("PV".toList, none)] := by
  rw [valueTable, if_pos hty, hsim, Option.bind_some, if_neg (by simp), average, if_pos rfl]
  rfl

/-! ### Dates -/

/-- What a cell of a sheet means as a date of an event. -/
def SheetDate (c o : Dict.Cell) : Prop :=
  (∃ n : Int, c = .num n ∧ |n| < 2147483647 ∧ o = .date (fromExcel n)) ∨ ((∀ q, c ≠ .num q) ∧ o = c)

private theorem sheetDate_iff (c o : Dict.Cell) : sheetDate c = some o ↔ SheetDate c o := by
  unfold SheetDate
  cases c with
  | num q =>
    rw [sheetDate, Option.map_eq_some_iff]
    constructor
    · rintro ⟨n, h, rfl⟩
      rcases (C93_int _ _).1 h with ⟨e, hl⟩ | ⟨e, _⟩ | ⟨e, _⟩
      · exact Or.inl ⟨n, e, hl, rfl⟩
      · cases e
      · cases e
    · rintro (⟨n, e, hl, rfl⟩ | ⟨h, _⟩)
      · exact ⟨n, (C93_int _ _).2 (Or.inl ⟨e, hl⟩), rfl⟩
      · exact absurd rfl (h q)
  | _ => simp [sheetDate, eq_comm]

/-- C96, dates of a sheet: they are converted one by one; whole numbers become the dates with those serials, other cells stay as they are, and nothing else is accepted. -/
theorem C96_dates (cs out : List Dict.Cell) : sheetDates cs = some out ↔ List.Forall₂ SheetDate cs out := by
  rw [sheetDates]
  induction cs generalizing out with
  | nil => simp [eq_comm]
  | cons c cs ih =>
    rw [List.mapM_cons]
    simp only [Option.bind_eq_bind, Option.bind_eq_some_iff, Option.pure_def, Option.some.injEq, sheetDate_iff]
    constructor
    · rintro ⟨o, ho, os, hos, rfl⟩
      exact .cons ho ((ih os).1 hos)
    · intro h
      cases h with
      | cons h1 h2 => exact ⟨_, h1, _, (ih _).2 h2, rfl⟩

example : sheetDates [.num 46000, .str "K".toList, .date ⟨7⟩] = some [.date ⟨20432⟩, .str "K".toList, .date ⟨7⟩] := by
  refine (C96_dates _ _).2 (.cons (Or.inl ⟨46000, by norm_num, by decide, by decide⟩) (.cons (Or.inr ⟨by simp, rfl⟩) (.cons (Or.inr ⟨by simp, rfl⟩) .nil)))

/-- A cell as a sheet may show it: a date as its serial. -/
def asSheet : Dict.Cell → Dict.Cell
  | .date d => .num (toExcel d)
  | c => c

variable {E : Type}

/-- C96, products: a table of valid dates and names gives the same product whether the sheet shows its dates as dates or as serials. -/
theorem C96_product (L : Lib E) (N : NumText) (sgn : Bool) (evalDate : Nat) (cells : List Dict.Cell) (texts : List Str) (hn : ∀ c ∈ cells, ∀ q, c ≠ .num q)
    (hd : ∀ d, Dict.Cell.date d ∈ cells → d.Valid) :
    sheetProduct L N sgn evalDate (cells.map asSheet) texts = product L N sgn evalDate cells texts ∧ sheetProduct L N sgn evalDate cells texts = product L N sgn evalDate cells texts := by
  have h1 : sheetDates (cells.map asSheet) = some cells := by
    refine (C96_dates _ _).2 ?_
    rw [List.forall₂_map_left_iff]
    refine List.forall₂_same.2 fun c hc => ?_
    cases c with
    | date d =>
      have hv := hd d hc
      refine Or.inl ⟨toExcel d, rfl, ?_, by rw [C01_excel_roundtrip.1 d hv]⟩
      have := hv.2
      rw [abs_lt, toExcel, excelOffset]
      omega
    | num q => exact absurd rfl (hn _ hc q)
    | _ => exact Or.inr ⟨by simp [asSheet], rfl⟩
  have h2 : sheetDates cells = some cells := (C96_dates _ _).2 (List.forall₂_same.2 fun c hc => Or.inr ⟨hn c hc, rfl⟩)
  rw [sheetProduct, sheetProduct, h1, h2]
  exact ⟨rfl, rfl⟩

example : (⟨20432⟩ : Date).Valid ∧ [Dict.Cell.str "K".toList, .date ⟨20432⟩].map asSheet = [.str "K".toList, .num 46000] := by
  refine ⟨by decide, ?_⟩
  simp only [List.map_cons, List.map_nil, asSheet, toExcel, excelOffset]
  norm_num

/-- C96, products: as many dates as events, or an error. -/
theorem C96_sizes (L : Lib E) (N : NumText) (sgn : Bool) (evalDate : Nat) (cells : List Dict.Cell) (texts : List Str) (h : cells.length ≠ texts.length) :
    sheetProduct L N sgn evalDate cells texts = none := by
  rw [sheetProduct]
  cases hs : sheetDates cells with
  | none => rfl
  | some cs =>
    have := ((C96_dates _ _).1 hs).length_eq
    rw [Option.bind_some, product, if_neg (by omega)]

/-- C96 is violated by serials outside the supported range: no error, the event is at the date with serial zero, and so in the past. -/
theorem C96_serial_violated (L : Lib E) (N : NumText) (sgn : Bool) (evalDate : Nat) (he : 0 < evalDate) (n : Int) (hn : |n| < 2147483647) (ho : n < 25569 ∨ 91103 < n) (t : Str) (e : List E)
    (hp : L.parse [] t = some e) : sheetProduct L N sgn evalDate [.num n] [t] = some { past := [(0, e)], future := [] } := by
  have hs : sheetDates [.num n] = some [.date ⟨0⟩] := by
    refine (C96_dates _ _).2 (.cons (Or.inl ⟨n, rfl, hn, ?_⟩) .nil)
    rw [fromExcel, if_neg (by rw [excelOffset]; omega)]
  rw [sheetProduct, hs, Option.bind_some, product, if_pos (by rfl)]
  have hev : ¬ evalDate ≤ 0 := by omega
  simp [rowOf, parseEvents, rows, step, addEvent, replaceAll, distribute, hp, hev]

/-- C96 is violated by dates that are text: the rows are macros, and the product has no events. -/
theorem C96_text_dates_violated (L : Lib E) (N : NumText) (sgn : Bool) (evalDate : Nat) (rs : List (Str × Str)) (hc : ∀ r ∈ rs, ':' ∉ r.1)
    (hd : rs.Pairwise fun a b => eqS sgn a.1 b.1 = false) :
    sheetProduct L N sgn evalDate (rs.map fun r => .str r.1) (rs.map (·.2)) = some {} := by
  have h2 : sheetDates (rs.map fun r => .str r.1) = some (rs.map fun r => .str r.1) :=
    (C96_dates _ _).2 (List.forall₂_same.2 fun c hc => Or.inr ⟨by obtain ⟨r, _, rfl⟩ := List.mem_map.1 hc; simp, rfl⟩)
  have hz : (rs.map fun r => Dict.Cell.str r.1).zip (rs.map (·.2)) = rs.map fun r => (.str r.1, r.2) := by rw [List.zip_map']
  have hm : ((rs.map fun r => (Dict.Cell.str r.1, r.2)).mapM fun e => rowOf N e.1 e.2) = some (rs.map fun r => .named r.1 r.2) := by
    clear hc hd h2 hz
    induction rs with
    | nil => rfl
    | cons r rs ih => rw [List.map_cons, List.mapM_cons, ih]; rfl
  have key : ∀ (rs : List (Str × Str)) (s : St), s.events = [] → (∀ r ∈ rs, ':' ∉ r.1) → rs.Pairwise (fun a b => eqS sgn a.1 b.1 = false) →
      Sorted sgn s.macros → Sorted sgn s.consts →
      (∀ r ∈ rs, Strings.mapFind sgn r.1 s.macros = none ∧ Strings.mapFind sgn r.1 s.consts = none) → ∃ s', rows L sgn (rs.map fun r => .named r.1 r.2) s = some s' ∧ s'.events = [] := by
    intro rs
    induction rs with
    | nil => intro s hs _ _ _ _ _; exact ⟨s, rfl, hs⟩
    | cons r rs ih =>
      intro s hs hc hd hm hk hf
      rw [List.pairwise_cons] at hd
      have hfr := hf r (by simp)
      have hins : ∀ {V : Type} (v : V) (m : List (Str × V)), Sorted sgn m → Strings.mapFind sgn r.1 m = none → ∀ x ∈ rs, Strings.mapFind sgn x.1 m = none →
          Strings.mapFind sgn x.1 (mapInsert sgn r.1 v m) = none := by
        intro V v m hm h0 x hx h1
        induction m with
        | nil =>
          have := hd.1 x hx
          rw [eq_comm'] at this
          rw [mapInsert, Strings.mapFind, if_neg]
          · rfl
          · rw [mapFind_iff (V := V), this]; simp
        | cons y m ihm =>
          rw [Sorted, List.pairwise_cons] at hm
          have hxr := hd.1 x hx
          rw [eq_comm'] at hxr
          simp only [Strings.mapFind, mapFind_iff (V := V)] at h0 h1
          split_ifs at h0 h1 with g1 g2
          simp only [mapInsert]
          split_ifs with g3 g4
          · simp only [Strings.mapFind, mapFind_iff (V := V), hxr, if_neg g2, h1]; simp
          · simp only [Strings.mapFind, mapFind_iff (V := V), if_neg g2]
            exact ihm hm.2 h0 h1
          · simp only [Strings.mapFind, mapFind_iff (V := V), if_neg g2, h1]
      rw [List.map_cons, rows, step, if_neg (hc r (by simp)), hfr.1, hfr.2, if_neg (by simp), if_neg (by simp), if_neg (by simp [hs])]
      split_ifs with hnum
      · refine ih _ hs (fun x hx => hc x (by simp [hx])) hd.2 hm (mapInsert_sorted _ _ _ _ hk) fun x hx => ⟨(hf x (by simp [hx])).1, hins _ _ hk hfr.2 x hx (hf x (by simp [hx])).2⟩
      · refine ih _ hs (fun x hx => hc x (by simp [hx])) hd.2 (mapInsert_sorted _ _ _ _ hm) hk fun x hx => ⟨hins _ _ hm hfr.1 x hx (hf x (by simp [hx])).1, (hf x (by simp [hx])).2⟩
  obtain ⟨s, h3, h4⟩ := key rs {} rfl hc hd .nil .nil fun r _ => ⟨rfl, rfl⟩
  rw [sheetProduct, h2, Option.bind_some, product, if_pos (by simp), hz, hm, Option.bind_some, parseEvents, h3]
  simp only [h4, distribute]

example : (∀ r ∈ [("2026-11-20".toList, "a = 1".toList), ("2026-12-20".toList, "b = 2".toList)], ':' ∉ r.1) ∧
    [("2026-11-20".toList, "a = 1".toList), ("2026-12-20".toList, "b = 2".toList)].Pairwise (fun a b => eqS true a.1 b.1 = false) := by
  refine ⟨by decide +kernel, by decide +kernel⟩

/-- C96 is violated by an empty cell: it is the name of a macro, and its text is put wherever the empty pattern matches. -/
theorem C96_blank_violated (L : Lib E) (N : NumText) (sgn : Bool) (evalDate : Nat) (d : Date) (hd : evalDate ≤ d.serial) (t u : Str) (ht : L.isNumber t = false) (e : List E)
    (hp : L.parse [] (L.subst [] t u) = some e) :
    sheetProduct L N sgn evalDate [.blank, .date d] [t, u] = some { past := [], future := [(d.serial, e)] } := by
  have hs : sheetDates [.blank, .date d] = some [.blank, .date d] := by
    refine (C96_dates _ _).2 (.cons (Or.inr ⟨by simp, rfl⟩) (.cons (Or.inr ⟨by simp, rfl⟩) .nil))
  rw [sheetProduct, hs, Option.bind_some, product, if_pos (by rfl)]
  simp [rowOf, toStr, parseEvents, rows, step, addEvent, replaceAll, distribute, Strings.mapFind, mapInsert, ht, hp, hd]

/-- C96, the description of a product: lines without breaks that, each ended by a break, are the text; an empty text is an error. -/
theorem C96_debug (ls : List Str) (h : ∀ l ∈ ls, '\n' ∉ l) :
    debugLines (ls.flatMap fun l => l ++ ['\n']) = if ls = [] then none else some ls := by
  unfold debugLines
  have hsplit : ∀ ls : List Str, (∀ l ∈ ls, '\n' ∉ l) → split '\n' true (ls.flatMap fun l => l ++ ['\n']) = ls := by
    intro ls
    induction ls with
    | nil => intro _; rfl
    | cons l ls ih =>
      intro h
      rw [List.flatMap_cons, List.append_assoc, List.singleton_append, split_piece _ _ _ _ (h l (by simp)), if_neg (by simp), ih fun x hx => h x (by simp [hx])]
  cases ls with
  | nil => rfl
  | cons l ls => rw [if_neg (by simp), if_neg (by simp), hsplit _ h]

example : debugLines "Var[0] = x\n\nend\n".toList = some ["Var[0] = x".toList, [], "end".toList] := by decide +kernel

end Dal

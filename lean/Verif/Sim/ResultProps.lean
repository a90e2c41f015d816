import Verif.Sim.ResultModel
import Verif.Concurrency.BatchProps
import Mathlib.Algebra.BigOperators.Group.List.Lemmas
import Mathlib.Algebra.BigOperators.Ring.List
import Mathlib.Algebra.Field.Basic
import Mathlib.Algebra.Field.Rat
import Mathlib.Tactic.Tauto

/-!
# C78: parameters, clones and results of a simulation

Specification: the parameters of a model in their order, each with its name; a clone shares nothing with its source; the reported sensitivity of a name is the mean of the
derivatives over all paths of the parameter with that name.
-/

namespace Dal
open Dal.Results

/-! ## Parameters and labels -/

/-- A vector with three first entries and then the rows of a matrix. -/
def rowMajor {A : Type} (a b c : A) (x : Nat → Nat → A) (rows cols : Nat) : List A :=
  [a, b, c] ++ (List.range rows).flatMap fun i => (List.range cols).map (x i)

private theorem put_at {A : Type} (pre suf : List A) (y z : A) : put (pre ++ y :: suf) pre.length z = some (pre ++ z :: suf) := by
  rw [put, if_pos (by rw [List.length_append, List.length_cons]; omega), List.set_append_right _ _ (Nat.le_refl _), Nat.sub_self, List.set_cons_zero]

private theorem inner_spec {A : Type} (x : Nat → Nat → A) (i : Nat) : ∀ (cols j k : Nat) (pre suf : List A), pre.length = k + 1 → cols ≤ suf.length →
    innerLoop x i cols j k (pre ++ suf) = some (k + cols, pre ++ (List.range' j cols).map (x i) ++ suf.drop cols) := by
  intro cols
  induction cols with
  | zero => intro j k pre suf _ _; simp [innerLoop]
  | succ cols ih =>
    intro j k pre suf hp hs
    cases suf with
    | nil => simp at hs
    | cons y suf =>
      rw [innerLoop, ← hp, put_at, Option.bind_some, show pre ++ x i j :: suf = (pre ++ [x i j]) ++ suf by simp, ih]
      · rw [List.range'_succ, List.map_cons, hp]
        simp
        omega
      · rw [List.length_append, List.length_singleton]
      · rw [List.length_cons] at hs; omega

private theorem outer_spec {A : Type} (x : Nat → Nat → A) (cols : Nat) : ∀ (rows i k : Nat) (pre suf : List A), pre.length = k + 1 → rows * cols ≤ suf.length →
    outerLoop x cols rows i k (pre ++ suf) = some (pre ++ (List.range' i rows).flatMap (fun i => (List.range cols).map (x i)) ++ suf.drop (rows * cols)) := by
  intro rows
  induction rows with
  | zero => intro i k pre suf _ _; simp [outerLoop]
  | succ rows ih =>
    intro i k pre suf hp hs
    rw [Nat.succ_mul] at hs
    rw [outerLoop, inner_spec x i cols 0 k pre suf hp (by omega), Option.bind_some, ih]
    · rw [List.range'_succ, List.flatMap_cons, List.drop_drop, List.range_eq_range', Nat.succ_mul, Nat.add_comm cols]
      simp
    · rw [List.length_append, List.length_map, List.length_range', hp]; omega
    · rw [List.length_drop]; omega

private theorem vector_spec {A : Type} (a b c : A) (x : Nat → Nat → A) (rows cols : Nat) (v : List A) (hv : v.length = rows * cols + 3) :
    dupireVector a b c x rows cols v = some (rowMajor a b c x rows cols) := by
  match v, hv with
  | p :: q :: r :: v, hv =>
    have hl : v.length = rows * cols := by simpa using hv
    rw [dupireVector]
    simp only [put, List.length_cons, List.set_cons_zero, List.set_cons_succ, Nat.zero_lt_succ, if_true, Option.bind_some]
    rw [if_pos (by simp), Option.bind_some, if_pos (by simp), Option.bind_some]
    have := outer_spec x cols rows 0 2 [a, b, c] v rfl (by omega)
    rw [List.drop_of_length_le (by omega), List.append_nil, ← List.range_eq_range'] at this
    exact this

/-- The name of a parameter. -/
def nameOf {K : Type} (txt : K → List Char) (spots times : Nat → K) : Kind → Field → List Char
  | _, .spot => "spot".toList
  | _, .vol => "vol".toList
  | _, .rate => "rate".toList
  | .bs, .div => "div".toList
  | .dupire _ _, .div => "repo".toList
  | _, .lvol i j => "lvol ".toList ++ txt (spots i) ++ " ".toList ++ txt (times j)

/-- The parameters of a model, in order. -/
def fieldsOf : Kind → List Field
  | .bs => [.spot, .vol, .rate, .div]
  | .dupire rows cols => rowMajor .spot .rate .div .lvol rows cols

/-- The labels of a model. -/
def labelsOf {K : Type} (txt : K → List Char) (spots times : Nat → K) : Kind → Option (List (List Char))
  | .bs => some bsLabels
  | .dupire rows cols => dupireLabels txt spots times rows cols

private theorem rowMajor_map {A B : Type} (f : A → B) (a b c : A) (x : Nat → Nat → A) (rows cols : Nat) :
    (rowMajor a b c x rows cols).map f = rowMajor (f a) (f b) (f c) (fun i j => f (x i j)) rows cols := by
  rw [rowMajor, rowMajor, List.map_append, List.map_flatMap]
  congr 1
  simp only [List.map_map]
  rfl

private theorem set_spec (k : Kind) (id : Nat) (v : List (Option Ptr)) (hv : v.length = k.size) :
    k.setPointers id v = some ((fieldsOf k).map fun f => some ⟨id, f⟩) := by
  cases k with
  | bs =>
    match v, hv with
    | [a, b, c, d], _ => rfl
  | dupire rows cols =>
    rw [Kind.setPointers, dupirePointers, vector_spec _ _ _ _ _ _ _ hv, fieldsOf, rowMajor_map]

/-- C78, parameters: the vector of pointers of a model has one pointer for each parameter, all into that model, and the label at every index is the name of the parameter at
that index; making it changes no other model. -/
theorem C78_parameters {K V : Type} (txt : K → List Char) (spots times : Nat → K) (h : Heap V) (k : Kind) (id : Nat) (vals : Field → V) :
    ∃ h', construct h k id vals = some h' ∧ h'.mem id = vals ∧ h'.params id = (fieldsOf k).map (fun f => some ⟨id, f⟩) ∧ (fieldsOf k).Nodup ∧
      labelsOf txt spots times k = some ((fieldsOf k).map (nameOf txt spots times k)) ∧ (fieldsOf k).length = k.size ∧
      ∀ o, o ≠ id → h'.mem o = h.mem o ∧ h'.params o = h.params o := by
  have hlen : (fieldsOf k).length = k.size := by
    cases k with
    | bs => rfl
    | dupire rows cols =>
      rw [fieldsOf, rowMajor, List.length_append, List.length_flatMap]
      simp [Kind.size, Nat.add_comm]
  refine ⟨_, by rw [construct, set_spec k id _ List.length_replicate]; rfl, by simp, by simp, ?_, ?_, hlen, fun o ho => by simp [ho]⟩
  · cases k with
    | bs => decide
    | dupire rows cols =>
      rw [fieldsOf, rowMajor, List.nodup_append]
      refine ⟨by decide, ?_, ?_⟩
      · rw [List.nodup_flatMap]
        refine ⟨fun i _ => List.nodup_range.map fun a b hab => by cases hab; rfl, ?_⟩
        refine List.Pairwise.imp ?_ (List.nodup_iff_pairwise_ne.1 List.nodup_range)
        intro i i' hne x hx hx'
        obtain ⟨j, _, rfl⟩ := List.mem_map.1 hx
        obtain ⟨j', _, he⟩ := List.mem_map.1 hx'
        cases he
        exact hne rfl
      · intro a ha b hb hab
        subst hab
        obtain ⟨i, _, hi⟩ := List.mem_flatMap.1 hb
        obtain ⟨j, _, rfl⟩ := List.mem_map.1 hi
        simp at ha
  · cases k with
    | bs => rfl
    | dupire rows cols =>
      rw [labelsOf, dupireLabels, vector_spec _ _ _ _ _ _ _ List.length_replicate, fieldsOf, rowMajor_map]
      rfl

/-! ## Clones -/

/-- An object has its pointers into itself. -/
def Own {V : Type} (h : Heap V) (k : Kind) (id : Nat) : Prop := h.params id = (fieldsOf k).map fun f => some ⟨id, f⟩

/-- C78, clones: a clone holds what its source holds, its parameters are its own, and every other object is unchanged. -/
theorem C78_clone {V : Type} (h : Heap V) (k : Kind) (src dst : Nat) (hs : (h.params src).length = k.size) :
    ∃ h', clone h k src dst = some h' ∧ h'.mem dst = h.mem src ∧ Own h' k dst ∧ ∀ o, o ≠ dst → h'.mem o = h.mem o ∧ h'.params o = h.params o := by
  refine ⟨_, by simp only [clone]; rw [set_spec k dst _ (by simpa using hs)]; rfl, by simp, by simp [Own], fun o ho => ?_⟩
  simp [ho]

/-- C78, clones: a write through a parameter of a model changes that parameter of that model and nothing else, and reads through all parameters see it. -/
theorem C78_write {V : Type} (h : Heap V) (k : Kind) (id j : Nat) (ho : Own h k id) (hj : j < (fieldsOf k).length) (x : V) :
    ∃ h', write h id j x = some h' ∧ h'.params = h.params ∧ (∀ o, o ≠ id → h'.mem o = h.mem o) ∧
      (∀ l, fetch h' id l = if l = j then some x else fetch h id l) := by
  have hp : ∀ l, (h.params id)[l]? = ((fieldsOf k)[l]?).map fun f => some (Ptr.mk id f) := fun l => by rw [ho, List.getElem?_map]
  have hnd : (fieldsOf k).Nodup := by
    obtain ⟨_, _, _, _, hn, _⟩ := C78_parameters (fun _ : Nat => []) (fun _ => 0) (fun _ => 0) h k id (h.mem id)
    exact hn
  refine ⟨{ h with mem := fun o f => if o = id ∧ f = (fieldsOf k)[j] then x else h.mem o f }, ?_, rfl, ?_, ?_⟩
  · rw [write, hp j, List.getElem?_eq_getElem hj]
    rfl
  · intro o hne
    funext f
    show (if o = id ∧ _ then x else h.mem o f) = _
    rw [if_neg (fun hh => hne hh.1)]
  · intro l
    rw [fetch, fetch]
    show (match (h.params id)[l]? with | some (some p) => some (if p.obj = id ∧ p.field = (fieldsOf k)[j] then x else h.mem p.obj p.field) | _ => none) = _
    rw [hp l]
    by_cases hl : l < (fieldsOf k).length
    · rw [List.getElem?_eq_getElem hl]
      show some (if id = id ∧ (fieldsOf k)[l] = (fieldsOf k)[j] then x else h.mem id (fieldsOf k)[l]) = if l = j then some x else some (h.mem id (fieldsOf k)[l])
      by_cases hlj : l = j
      · subst hlj; simp
      · rw [if_neg hlj, if_neg]
        rintro ⟨_, he⟩
        exact hlj ((List.Nodup.getElem_inj_iff hnd).1 he)
    · rw [List.getElem?_eq_none (by omega), if_neg (by omega)]
      rfl

/-- A clone of a Black–Scholes model, and a write to its volatility. -/
example : ∃ h1 h2 h3 : Heap Nat, construct ⟨fun _ _ => 0, fun _ => []⟩ .bs 0 (fun f => if f = .vol then 20 else 100) = some h1 ∧ clone h1 .bs 0 1 = some h2 ∧
    write h2 1 1 30 = some h3 ∧ fetch h3 1 1 = some 30 ∧ fetch h3 0 1 = some 20 := by
  refine ⟨_, _, _, rfl, rfl, rfl, ?_, ?_⟩ <;> decide

/-! ## Model data -/

/-- C78, model data: the Black–Scholes model made from data holds under every label the number of that name, and a mutant without slides differs in its name only. -/
theorem C78_create {K S : Type} [Zero K] (h : Heap K) (d : BsData K) (id : Nat) (n : List Char) : ∃ h', construct h .bs id (createBs d) = some h' ∧
    bsLabels.length = 4 ∧ (List.range 4).map (fetch h' id) = [some d.spot, some d.vol, some d.rate, some d.div] ∧
    mutant d n ([] : List S) = some ⟨n, d.spot, d.vol, d.rate, d.div⟩ := by
  obtain ⟨h', h1, h2, h3, -, -, -, -⟩ := C78_parameters (fun _ : Nat => []) (fun _ => 0) (fun _ => 0) h .bs id (createBs d)
  refine ⟨h', h1, rfl, ?_, rfl⟩
  have : ∀ l, fetch h' id l = ((fieldsOf .bs)[l]?).map (createBs d) := by
    intro l
    rw [fetch, h3, List.getElem?_map]
    cases (fieldsOf .bs)[l]? with
    | none => rfl
    | some f =>
      show some (h'.mem id f) = some (createBs d f)
      rw [h2]
  rw [List.map_congr_left fun l _ => this l]
  rfl

/-- C78 fails for slides: a mutant with any slide reads its name through the null pointer. -/
theorem C78_slides_violated {K S : Type} (d : BsData K) (n : List Char) (s : S) (ss : List S) : mutant d n (s :: ss) = none := by
  rw [mutant, List.foldl_cons]
  show ss.foldl _ ((some _).bind fun d => mutant1 d none) = none
  have : ∀ l : List S, l.foldl (fun (acc : Option (BsData K)) _ => acc.bind fun d => mutant1 d none) none = none := by
    intro l
    induction l with
    | nil => rfl
    | cons a l ih => exact ih
  exact this ss

/-! ## Results -/

private theorem build_spec (owner : Nat) : ∀ (ns : List (List Char)) (i : Nat) (m : List Char → Option (Nat × Nat)) (x : List Char), x ∉ ns →
    buildMap owner i ns m x = m x := by
  intro ns
  induction ns with
  | nil => intro i m x _; rfl
  | cons n ns ih =>
    intro i m x hx
    rw [List.mem_cons, not_or] at hx
    rw [buildMap, ih _ _ _ hx.2, if_neg hx.1]

private theorem build_last (owner : Nat) : ∀ (ns : List (List Char)) (i : Nat) (m : List Char → Option (Nat × Nat)) (k : Nat) (hk : k < ns.length),
    ns[k] ∉ ns.drop (k + 1) → buildMap owner i ns m ns[k] = some (owner, i + k) := by
  intro ns
  induction ns with
  | nil => intro i m k hk; simp at hk
  | cons n ns ih =>
    intro i m k hk hl
    cases k with
    | zero =>
      rw [buildMap]
      simp only [List.getElem_cons_zero, Nat.zero_add, List.drop_succ_cons, List.drop_zero] at hl ⊢
      rw [build_spec _ _ _ _ _ hl, if_pos rfl]
      rfl
    | succ k =>
      rw [buildMap]
      simp only [List.getElem_cons_succ, List.drop_succ_cons] at hl ⊢
      rw [ih (i + 1) _ k (by simpa using hk) hl]
      congr 2
      omega

/-- C78, results: the result under a name is the risk of the last parameter with that name; with distinct names it is the risk of that parameter. -/
theorem C78_result {K : Type} (owner : Nat) (names : List (List Char)) (mem : Nat → List K) (hlen : (mem owner).length = names.length) (k : Nat) (hk : k < names.length)
    (hl : names[k] ∉ names.drop (k + 1)) : (newResults owner names).at mem names[k] = some ((mem owner)[k]'(by omega)) := by
  rw [SimResults.at, newResults]
  dsimp only
  rw [build_last owner names 0 _ k hk hl, Option.bind_some]
  dsimp only
  rw [Nat.zero_add, List.getElem?_eq_getElem (by omega)]

/-- C78, results: a name that is not there is read through the null pointer. -/
theorem C78_unknown_name_violated {K : Type} (owner : Nat) (names : List (List Char)) (mem : Nat → List K) (x : List Char) (hx : x ∉ names) :
    (newResults owner names).at mem x = none := by
  rw [SimResults.at, newResults]
  dsimp only
  rw [build_spec owner names 0 _ x hx]
  rfl

/-- C78 fails for copies of results: the copy reads the risks of its source, whatever its own are. -/
theorem C78_copy_violated {K : Type} (o o' : Nat) (names : List (List Char)) (mem : Nat → List K) (x : List Char) (ys : List K) (hne : o' ≠ o) :
    ((newResults o names).copy o').at (fun i => if i = o' then ys else mem i) x = (newResults o names).at mem x := by
  have hb : ∀ (ns : List (List Char)) (i : Nat) (m : List Char → Option (Nat × Nat)), (∀ y p, m y = some p → p.1 = o) → ∀ y p, buildMap o i ns m y = some p → p.1 = o := by
    intro ns
    induction ns with
    | nil => intro i m hm y p h; exact hm y p h
    | cons n ns ih =>
      intro i m hm y p h
      rw [buildMap] at h
      refine ih _ _ ?_ y p h
      intro z q hz
      split_ifs at hz with hzn
      · cases hz; rfl
      · exact hm z q hz
  simp only [SimResults.at, SimResults.copy, newResults]
  cases h : buildMap o 0 names (fun _ => none) x with
  | none => rfl
  | some p =>
    have := hb names 0 _ (fun y p hy => by cases hy) x p h
    simp only [Option.bind_some, this]
    rw [if_neg (Ne.symm hne)]

/-! ## Means -/

/-- C78, risks: whichever thread runs which task and in whatever order, the risk of a parameter is the mean over all paths of the derivative along the path. -/
theorem C78_risk {K : Type} [Field K] (n threads : Nat) (hn : n < 2 ^ 31 - 1) (ht : 0 < threads) (ts : List (Int × Int)) (h : Batch.batches n threads = some ts)
    (grad : Nat → K) (ex : List ((Int × Int) × Nat)) (hperm : (ex.map (·.1)).Perm ts) (hthread : ∀ e ∈ ex, e.2 < threads) :
    risk grad n threads ex = ((List.range n).map grad).sum / n := by
  have hsum : ∀ t, Batch.taskSum grad t / (n : K) = Batch.taskSum (fun i => grad i / (n : K)) t := by
    intro t
    unfold Batch.taskSum
    have : ∀ (l : List Nat) (a : K), (l.foldl (fun acc i => acc + grad i) a) / (n : K) = l.foldl (fun acc i => acc + grad i / (n : K)) (a / n) := by
      intro l
      induction l with
      | nil => intro a; rfl
      | cons i l ih => intro a; rw [List.foldl_cons, ih, List.foldl_cons, add_div]
    rw [this, zero_div]
  have hrun : riskOn grad n = Batch.runOn (fun i => grad i / (n : K)) := by
    funext slots e
    rw [riskOn, Batch.runOn, hsum]
  have := C38_any_schedule n threads hn ht ts h (fun i => grad i / (n : K)) ex hperm hthread
  rw [Batch.valueAAD, ← hrun] at this
  rw [risk, this]
  have hdiv : ∀ l : List Nat, (l.map fun i => grad i / (n : K)).sum = (l.map grad).sum / n := by
    intro l
    induction l with
    | nil => rw [List.map_nil, List.map_nil, List.sum_nil, zero_div]
    | cons i l ih => rw [List.map_cons, List.sum_cons, ih, List.map_cons, List.sum_cons, add_div]
  exact hdiv _

/-- Two threads and one task. -/
example : risk (fun i => (i : Rat)) 3 2 [((0, 3), 1)] = 1 := by
  have h := C78_risk 3 2 (by decide) (by decide) [(0, 3)] (by decide) (fun i => (i : Rat)) [((0, 3), 1)] (List.Perm.refl _) (by decide)
  rw [h]
  decide +kernel

private theorem report_spec {K : Type} [DivisionRing K] (r : SimResults) (mem : Nat → List K) : ∀ (ns : List (List Char)) (m : List Char → Option K),
    (∀ n ∈ ns, ∃ v, r.at mem n = some v) →
    ∃ m', ns.foldl (fun acc n => acc.bind fun m => (r.at mem n).map fun v => fun x => if x = "d_".toList ++ n then some v else m x) (some m) = some m' ∧
      (∀ n ∈ ns, m' ("d_".toList ++ n) = r.at mem n) ∧ ∀ x, (∀ n ∈ ns, x ≠ "d_".toList ++ n) → m' x = m x := by
  intro ns
  induction ns with
  | nil => intro m _; exact ⟨m, rfl, (fun _ h => by cases h), fun _ _ => rfl⟩
  | cons n ns ih =>
    intro m h
    obtain ⟨v, hv⟩ := h n (List.mem_cons_self ..)
    obtain ⟨m', h1, h2, h3⟩ := ih (fun x => if x = "d_".toList ++ n then some v else m x) fun n' hn' => h n' (List.mem_cons_of_mem _ hn')
    refine ⟨m', ?_, ?_, ?_⟩
    · rw [List.foldl_cons, Option.bind_some, hv]
      exact h1
    · intro n' hn'
      by_cases hin : n' ∈ ns
      · exact h2 n' hin
      · rcases List.mem_cons.1 hn' with rfl | h'
        · rw [h3 _ fun a ha he => hin (by rw [List.append_cancel_left he]; exact ha)]
          rw [if_pos rfl, hv]
        · exact absurd h' hin
    · intro x hx
      rw [h3 x fun a ha => hx a (List.mem_cons_of_mem _ ha)]
      rw [if_neg (hx n (List.mem_cons_self ..))]

/-- C78, the report: for distinct names the report of a simulation has the mean of the values as `PV` and for every parameter, under `d_` and its name, its risk. -/
theorem C78_report {K : Type} [DivisionRing K] (owner : Nat) (names : List (List Char)) (hnd : names.Nodup) (mem : Nat → List K) (hlen : (mem owner).length = names.length)
    (agg : K) (n : Nat) : ∃ m, report (newResults owner names) mem agg n = some m ∧ m "PV".toList = some (agg / n) ∧
      ∀ k (hk : k < names.length), m ("d_".toList ++ names[k]) = some ((mem owner)[k]'(by omega)) := by
  have hat : ∀ k (hk : k < names.length), (newResults owner names).at mem names[k] = some ((mem owner)[k]'(by omega)) := by
    intro k hk
    refine C78_result owner names mem hlen k hk ?_
    intro hm
    obtain ⟨l, hl, he⟩ := List.getElem_of_mem hm
    rw [List.getElem_drop] at he
    have := (List.Nodup.getElem_inj_iff hnd).1 he
    omega
  obtain ⟨m, h1, h2, h3⟩ := report_spec (newResults owner names) mem names (fun x => if x = "PV".toList then some (agg / n) else none) (by
    intro x hx
    obtain ⟨k, hk, rfl⟩ := List.getElem_of_mem hx
    exact ⟨_, hat k hk⟩)
  refine ⟨m, h1, ?_, fun k hk => ?_⟩
  · rw [h3 _ (fun a _ he => ?_), if_pos rfl]
    have := congrArg List.head? he
    exact absurd this (by show some 'P' ≠ some 'd'; decide)
  · rw [h2 _ (List.getElem_mem _), hat k hk]

example : ∃ m : List Char → Option Rat, report (newResults 7 bsLabels) (fun _ => [1, 2, 3, 4]) 10 5 = some m ∧ m "d_rate".toList = some 3 := by
  obtain ⟨m, h1, -, h3⟩ := C78_report (K := Rat) 7 bsLabels (by decide) (fun _ => [1, 2, 3, 4]) rfl 10 5
  exact ⟨m, h1, h3 2 (by decide)⟩

/-- C78 fails when a constant of the script has the name of a parameter of the model: the report has the risk of the constant under that name, and the risk of the parameter is
not in it. -/
theorem C78_name_clash_violated {K : Type} [DivisionRing K] (mem : Nat → List K) (a b c d e agg : K) (n : Nat) (hm : mem 0 = [a, b, c, d, e]) :
    ∃ m, report (newResults 0 (bsLabels ++ ["rate".toList])) mem agg n = some m ∧ m "d_rate".toList = some e := by
  obtain ⟨m, h1, h2, h3⟩ := report_spec (newResults 0 (bsLabels ++ ["rate".toList])) mem (bsLabels ++ ["rate".toList])
    (fun x => if x = "PV".toList then some (agg / n) else none) (by
    intro x hx
    have : x = "spot".toList ∨ x = "vol".toList ∨ x = "rate".toList ∨ x = "div".toList := by
      simp only [bsLabels, List.mem_append, List.mem_cons, List.not_mem_nil, or_false] at hx
      tauto
    rcases this with rfl | rfl | rfl | rfl
    · exact ⟨a, by show (mem 0)[0]? = _; rw [hm]; rfl⟩
    · exact ⟨b, by show (mem 0)[1]? = _; rw [hm]; rfl⟩
    · exact ⟨e, by show (mem 0)[4]? = _; rw [hm]; rfl⟩
    · exact ⟨d, by show (mem 0)[3]? = _; rw [hm]; rfl⟩)
  refine ⟨m, h1, ?_⟩
  have := h2 "rate".toList (by decide)
  rw [show "d_rate".toList = "d_".toList ++ "rate".toList by decide, this]
  show (mem 0)[4]? = _
  rw [hm]
  rfl

/-- C78 fails for a Dupire model with two spots that have the same text: they have one label. -/
theorem C78_label_clash_violated {K : Type} (txt : K → List Char) (spots times : Nat → K) (rows cols i i' j : Nat) (hi : i < rows) (hi' : i' < rows) (hne : i < i') (hj : j < cols)
    (ht : txt (spots i) = txt (spots i')) : ∃ ls, dupireLabels txt spots times rows cols = some ls ∧ ¬ ls.Nodup := by
  refine ⟨_, vector_spec _ _ _ _ _ _ _ List.length_replicate, fun hnd => ?_⟩
  rw [rowMajor, List.nodup_append] at hnd
  have h1 := (List.nodup_flatMap.1 hnd.2.1).2
  have h2 := List.pairwise_iff_getElem.1 h1 i i' (by simpa using hi) (by simpa using hi') hne
  simp only [List.getElem_range, Function.onFun] at h2
  refine h2 (List.mem_map.2 ⟨j, List.mem_range.2 hj, rfl⟩) (List.mem_map.2 ⟨j, List.mem_range.2 hj, ?_⟩)
  rw [ht]

example : ∃ ls, dupireLabels (fun _ : Nat => "100.00".toList) (fun i => i) (fun j => j) 2 1 = some ls ∧ ¬ ls.Nodup :=
  C78_label_clash_violated _ _ _ 2 1 0 1 0 (by decide) (by decide) (by decide) (by decide) rfl

end Dal

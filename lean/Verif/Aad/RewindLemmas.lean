import Verif.Aad.RewindModel
import Verif.Aad.AdjointProps

/-! # Lemmas: a rewound tape against the tape on which nothing is overwritten -/

namespace Dal.Adj

/-- Where the numbers are after the inputs have been made twice and the tape rewound: the inputs behind the first copies, the rest from
the start on. -/
def place (n k : Nat) : Nat := if k < n then n + k else k - n

theorem place_low {n k : Nat} (h : k < n) : place n k = n + k := if_pos h
theorem place_high {n k : Nat} (h : n ≤ k) : place n k = k - n := if_neg (by omega)

theorem place_ne {n m : Nat} (hm : m ≤ n) {i k : Nat} (hi : i < n + m) (hk : k < n + m) (h : i ≠ k) : place n i ≠ place n k := by
  unfold place
  split_ifs <;> omega

theorem before_node (lib : Lib) (env : Nat → ℝ) {s : Stmt} {p : List Stmt} {k : Nat} (h : Sound lib (s :: p) k env) : ∀ a ∈ s.node lib env, a.1 < k := by
  cases s with
  | leaf v => intro a ha; simp [Stmt.node] at ha
  | expr e => exact push_before lib env e 1 h.1

theorem sound_tail (lib : Lib) (env : Nat → ℝ) {s : Stmt} {p : List Stmt} {k : Nat} (h : Sound lib (s :: p) k env) : Sound lib p (k + 1) (Function.update env k (s.value lib env)) := by
  cases s with
  | leaf v => exact h
  | expr e => exact h.2.2

theorem execAll_spec (lib : Lib) (n : Nat) : ∀ (p : List Stmt) (k : Nat) (v : Vars) (t : Mem1), n ≤ k → t.next = k - n → (∀ j, j < k → v.loc j = place n j) → Sound lib p k v.val →
    (execAll lib p k v t).1.val = values lib p k v.val ∧ (∀ j, j < k + p.length → (execAll lib p k v t).1.loc j = place n j) ∧ (execAll lib p k v t).2.next = k - n + p.length ∧
    (∀ j, j < k - n → (execAll lib p k v t).2.node j = t.node j) ∧
    (∀ (j : Nat) (nd : Node), (nodes lib p k v.val)[j]? = some nd → (execAll lib p k v t).2.node (k - n + j) = nd.map fun a => (place n a.1, a.2)) ∧
    ∀ j, (execAll lib p k v t).2.adj j = if k - n ≤ j ∧ j < k - n + p.length then 0 else t.adj j := by
  intro p
  induction p with
  | nil =>
    intro k v t hk hn hl _
    exact ⟨rfl, hl, hn, fun _ _ => rfl, fun j nd h => by simp [nodes] at h, fun j => by
      rw [if_neg (by simp)]; rfl⟩
  | cons s p ih =>
    intro k v t hk hn hl hs
    obtain ⟨h1, h2, h3, h4, h5, h6⟩ := ih (k + 1) (exec lib s k v t).1 (exec lib s k v t).2 (by omega) (by show t.next + 1 = _; omega)
      (by
        intro j hj
        show Function.update v.loc k t.next j = _
        by_cases hjk : j = k
        · subst hjk
          rw [Function.update_self, hn, place_high hk]
        · rw [Function.update_of_ne hjk]
          exact hl j (by omega))
      (sound_tail lib v.val hs)
    rw [execAll]
    refine ⟨h1, fun j hj => h2 j (by simp at hj; omega), by rw [h3, List.length_cons]; omega, fun j hj => ?_, fun j nd hnd => ?_, fun j => ?_⟩
    · rw [h4 j (by omega)]
      show Function.update t.node t.next _ j = _
      rw [Function.update_of_ne (by omega)]
    · cases j with
      | zero =>
        refine (h4 (k - n) (by omega)).trans ?_
        show Function.update t.node t.next _ (k - n) = _
        rw [← hn, Function.update_self]
        have hnd' : s.node lib v.val = nd := by simpa [nodes] using hnd
        rw [← hnd']
        refine List.map_congr_left fun a ha => ?_
        rw [hl a.1 (before_node lib v.val hs a ha)]
      | succ j =>
        have := h5 j nd (by rw [nodes, List.getElem?_cons_succ] at hnd; exact hnd)
        rw [← this]
        congr 1
        omega
    · rw [h6]
      show (if _ then (0 : ℝ) else Function.update t.adj t.next 0 j) = _
      by_cases hj : j = t.next
      · subst hj
        rw [Function.update_self, ite_self, if_pos (by simp; omega)]
      · rw [Function.update_of_ne hj]
        have : (k + 1 - n ≤ j ∧ j < k + 1 - n + p.length) ↔ (k - n ≤ j ∧ j < k - n + (s :: p).length) := by
          rw [List.length_cons]
          omega
        simp only [this]

/-- The same adjoints at their two places. -/
def Same (n m : Nat) (a v : Nat → ℝ) : Prop := ∀ k, k < n + m → a (place n k) = v k

theorem same_update {n m : Nat} (hm : m ≤ n) {a v : Nat → ℝ} (h : Same n m a v) {k : Nat} (hk : k < n + m) (x : ℝ) : Same n m (Function.update a (place n k) x) (Function.update v k x) := by
  intro j hj
  by_cases hjk : j = k
  · subst hjk
    rw [Function.update_self, Function.update_self]
  · rw [Function.update_of_ne (place_ne hm hj hk hjk), Function.update_of_ne hjk]
    exact h j hj

theorem same_spread {n m : Nat} (hm : m ≤ n) {s : Nat} (hs : s < n + m) : ∀ (nd : Node) (a v : Nat → ℝ), Same n m a v → (∀ x ∈ nd, x.1 < n + m) →
    Same n m (spread (place n s) (nd.map fun x => (place n x.1, x.2)) a) (spread s nd v) := by
  intro nd
  induction nd with
  | nil => intro a v h _; exact h
  | cons x r ih =>
    obtain ⟨j, d⟩ := x
    intro a v h hb
    have hj : j < n + m := hb (j, d) List.mem_cons_self
    show Same n m (spread (place n s) (r.map fun x => (place n x.1, x.2)) (Function.update a (place n j) (a (place n j) + a (place n s) * d))) (spread s r (Function.update v j (v j + v s * d)))
    rw [h j hj, h s hs]
    exact ih _ _ (same_update hm h hj _) fun x hx => hb x (List.mem_cons_of_mem _ hx)

theorem same_one {n m : Nat} (hm : m ≤ n) {eps : ℝ} {s : Nat} (hs : s < n + m) (nd : Node) {a v : Nat → ℝ} (h : Same n m a v) (hb : ∀ x ∈ nd, x.1 < n + m) :
    Same n m (propagateOne eps (place n s) (nd.map fun x => (place n x.1, x.2)) a) (propagateOne eps s nd v) := by
  unfold propagateOne
  rw [h s hs]
  by_cases hc : nd = [] ∨ |v s| ≤ eps
  · rw [if_pos hc, if_pos (by simpa using hc)]
    exact h
  · rw [if_neg hc, if_neg (by simpa using hc)]
    exact same_spread hm hs nd a v h hb

theorem same_sweep {n m : Nat} (hm : m ≤ n) {eps : ℝ} {T : List Node} (hT : ∀ (k : Nat) (nd : Node), T[k]? = some nd → ∀ x ∈ nd, x.1 < n + m) {node : Nat → Node} :
    ∀ (j : Nat) (a v : Nat → ℝ), j < m → (∀ i, i ≤ j → ∃ nd, T[n + i]? = some nd ∧ node i = nd.map fun x => (place n x.1, x.2)) → Same n m a v →
    ∃ v', down eps T j (n + j) v = some v' ∧ Same n m (sweep eps node j a) v' := by
  intro j
  induction j with
  | zero =>
    intro a v hj hn h
    obtain ⟨nd, h1, h2⟩ := hn 0 le_rfl
    refine ⟨_, by rw [down, h1], ?_⟩
    have := same_one hm (eps := eps) (s := n + 0) (by omega) nd h (hT _ _ h1)
    rw [place_high (by omega), show n + 0 - n = 0 by omega, ← h2] at this
    exact this
  | succ j ih =>
    intro a v hj hn h
    obtain ⟨nd, h1, h2⟩ := hn (j + 1) le_rfl
    have h3 := same_one hm (eps := eps) (s := n + (j + 1)) (by omega) nd h (hT _ _ h1)
    rw [place_high (by omega), show n + (j + 1) - n = j + 1 by omega, ← h2] at h3
    obtain ⟨v', h4, h5⟩ := ih _ _ (by omega) (fun i hi => hn i (by omega)) h3
    refine ⟨v', ?_, h5⟩
    rw [← h4, down.eq_def]
    show (match T[n + j + 1]? with | none => none | some nd => down eps T j (n + j) (propagateOne eps (n + j + 1) nd v)) = _
    rw [show T[n + j + 1]? = some nd from h1]
    rfl

/-- A round on the rewound tape against a path on the tape with a mark behind the inputs. -/
theorem round_spec (lib : Lib) (eps : ℝ) (n : Nat) (p : List Stmt) (hm : p.length ≤ n) (v : Vars) (hs : Sound lib p n v.val) (hl : ∀ j, j < n → v.loc j = n + j) (r : Nat) (hr : r < p.length)
    (t : Mem1) (adj : Nat → ℝ) (ht : ∀ i, i < n → t.adj (n + i) = adj i) :
    ∃ t' adj', rewindRound lib eps p n (n + r) v t = some (values lib p n v.val (n + r), t') ∧ onePath lib eps (List.replicate n []) v.val p (n + r) adj = some adj' ∧
      ∀ i, i < n → t'.adj (n + i) = adj' i := by
  obtain ⟨h1, h2, h3, h4, h5, h6⟩ := execAll_spec lib n p n v t.rewind le_rfl (by show 0 = _; omega) (fun j hj => (hl j hj).trans (place_low hj).symm) hs
  set x := execAll lib p n v t.rewind with hx
  have hloc : x.1.loc (n + r) = r := by
    rw [h2 (n + r) (by omega), place_high (by omega)]; omega
  have hsame : Same n p.length (Function.update x.2.adj r 1) (Function.update (fun k => if k < n then adj k else 0) (n + r) 1) := by
    have h0 : Same n p.length x.2.adj (fun k => if k < n then adj k else 0) := by
      intro k hk
      rw [h6]
      dsimp only
      by_cases hkn : k < n
      · rw [place_low hkn, if_neg (by omega), if_pos hkn]
        exact ht k hkn
      · rw [place_high (by omega), if_pos (by omega), if_neg hkn]
    have := same_update hm h0 (k := n + r) (by omega) 1
    rwa [place_high (by omega), show n + r - n = r by omega] at this
  have hlen := nodes_length lib p n v.val
  have hback := nodes_back lib p n v.val hs
  obtain ⟨v', h7, h8⟩ := same_sweep (eps := eps) hm (T := List.replicate n [] ++ nodes lib p n v.val) (node := x.2.node) (by
      intro k nd hk a ha
      by_cases hkn : k < n
      · rw [List.getElem?_append_left (by simpa using hkn), List.getElem?_replicate, if_pos hkn] at hk
        cases hk
        simp at ha
      · rw [List.getElem?_append_right (by simpa using Nat.le_of_not_lt hkn), List.length_replicate] at hk
        have := hback _ nd hk a ha
        have hlt := (List.getElem?_eq_some_iff.1 hk).1
        omega) r _ _ hr (by
      intro i hi
      refine ⟨(nodes lib p n v.val)[i]'(by omega), ?_, ?_⟩
      · rw [List.getElem?_append_right (by simp), List.length_replicate, Nat.add_sub_cancel_left, List.getElem?_eq_getElem]
      · have := h5 i _ (List.getElem?_eq_getElem (by omega))
        rwa [Nat.sub_self, Nat.zero_add] at this) hsame
  refine ⟨{ x.2 with adj := sweep eps x.2.node r (Function.update x.2.adj r 1) }, v', ?_, ?_, fun i hi => ?_⟩
  · rw [rewindRound, ← hx, toStart, hloc, if_pos (by rw [h3]; omega), Option.map_some, h1]
  · rw [onePath, List.length_replicate, propagateFrom, propagate, if_neg (by omega), show n + r - n = r by omega]
    exact h7
  · have := h8 i (by omega)
    rwa [place_low hi] at this

theorem rounds_spec (lib : Lib) (eps : ℝ) (n : Nat) (p : List Stmt) (hm : p.length ≤ n) (v : Vars) (hs : Sound lib p n v.val) (hl : ∀ j, j < n → v.loc j = n + j) (r : Nat) (hr : r < p.length) :
    ∀ (rounds : Nat) (last : ℝ) (t : Mem1) (adj : Nat → ℝ), (∀ i, i < n → t.adj (n + i) = adj i) →
    ∃ t' adj', rewindRounds lib eps p n (n + r) v rounds last t = some (if rounds = 0 then last else values lib p n v.val (n + r), t') ∧
      paths lib eps (List.replicate n []) v.val (List.replicate rounds (p, n + r)) adj = some adj' ∧ ∀ i, i < n → t'.adj (n + i) = adj' i := by
  intro rounds
  induction rounds with
  | zero => intro last t adj ht; exact ⟨t, adj, rfl, rfl, ht⟩
  | succ k ih =>
    intro last t adj ht
    obtain ⟨t1, adj1, h1, h2, h3⟩ := round_spec lib eps n p hm v hs hl r hr t adj ht
    obtain ⟨t2, adj2, h4, h5, h6⟩ := ih (values lib p n v.val (n + r)) t1 adj1 h3
    refine ⟨t2, adj2, ?_, ?_, h6⟩
    · rw [rewindRounds, h1, Option.bind_some, h4, ite_self, if_neg (by omega)]
    · rw [List.replicate_succ, paths, h2, Option.bind_some, h5]

theorem inputs_values (lib : Lib) : ∀ (vs : List ℝ) (k : Nat) (env : Nat → ℝ) (j : Nat), values lib (vs.map .leaf) k env j = if k ≤ j ∧ j < k + vs.length then vs.getD (j - k) 0 else env j := by
  intro vs
  induction vs with
  | nil => intro k env j; rw [if_neg (by simp)]; rfl
  | cons x vs ih =>
    intro k env j
    show values lib (vs.map .leaf) (k + 1) (Function.update env k x) j = _
    rw [ih]
    rcases lt_trichotomy j k with h | h | h
    · rw [if_neg (by omega), if_neg (by omega), Function.update_of_ne (by omega)]
    · subst h
      rw [if_neg (by omega), if_pos (by simp), Function.update_self]; simp
    · by_cases h2 : j < k + 1 + vs.length
      · rw [if_pos (by omega), if_pos (by simp; omega), show j - k = (j - (k + 1)) + 1 by omega]; rfl
      · rw [if_neg (by omega), if_neg (by simp; omega), Function.update_of_ne (by omega)]

theorem inputs_nodes (lib : Lib) : ∀ (vs : List ℝ) (k : Nat) (env : Nat → ℝ), nodes lib (vs.map .leaf) k env = List.replicate vs.length [] := by
  intro vs
  induction vs with
  | nil => intro k env; rfl
  | cons x vs ih =>
    intro k env
    show [] :: nodes lib (vs.map .leaf) (k + 1) (Function.update env k x) = _
    rw [ih]; rfl

theorem inputs_sound (lib : Lib) : ∀ (vs : List ℝ) (k : Nat) (env : Nat → ℝ), Sound lib (vs.map .leaf) k env := by
  intro vs
  induction vs with
  | nil => intro k env; exact trivial
  | cons x vs ih => intro k env; exact ih (k + 1) (Function.update env k x)

theorem down_leaves (eps : ℝ) (n : Nat) : ∀ (count s : Nat) (adj : Nat → ℝ), s < n → count ≤ s → down eps (List.replicate n []) count s adj = some adj := by
  intro count
  induction count with
  | zero => intro s adj hs _; rw [down.eq_def]; dsimp only; rw [List.getElem?_replicate, if_pos hs]; simp [propagateOne]
  | succ c ih =>
    intro s adj hs hc
    obtain ⟨s', rfl⟩ := Nat.exists_eq_succ_of_ne_zero (by omega : s ≠ 0)
    rw [down.eq_def]
    dsimp only
    rw [List.getElem?_replicate, if_pos hs]
    show down eps _ c s' (propagateOne eps (s' + 1) [] adj) = _
    rw [show propagateOne eps (s' + 1) [] adj = adj from if_pos (Or.inl rfl)]
    exact ih s' adj (by omega) (by omega)

theorem leaves_adj : ∀ (k : Nat) (t : Mem1), (∀ i, t.adj i = 0) → ∀ i, (t.leaves k).adj i = 0 := by
  intro k
  induction k with
  | zero => intro t h; exact h
  | succ k ih =>
    intro t h
    refine ih (t.record []) fun i => ?_
    show Function.update t.adj t.next 0 i = 0
    by_cases hi : i = t.next
    · subst hi; rw [Function.update_self]
    · rw [Function.update_of_ne hi, h]

theorem values_after (lib : Lib) : ∀ (p q : List Stmt) (k : Nat) (env : Nat → ℝ), values lib (p ++ q) k env = values lib q (k + p.length) (values lib p k env) := by
  intro p
  induction p with
  | nil => intro q k env; rfl
  | cons s p ih =>
    intro q k env
    rw [List.cons_append, values, ih, values, List.length_cons, show k + 1 + p.length = k + (p.length + 1) by omega]

theorem sound_after (lib : Lib) : ∀ (p q : List Stmt) (k : Nat) (env : Nat → ℝ), Sound lib p k env → Sound lib q (k + p.length) (values lib p k env) → Sound lib (p ++ q) k env := by
  intro p
  induction p with
  | nil => intro q k env _ h; exact h
  | cons s p ih =>
    intro q k env h1 h2
    rw [values, List.length_cons, show k + (p.length + 1) = k + 1 + p.length by omega] at h2
    have h3 := ih q (k + 1) _ (sound_tail lib env h1) h2
    cases s with
    | leaf v => exact h3
    | expr e => exact ⟨h1.1, h1.2.1, h3⟩

end Dal.Adj

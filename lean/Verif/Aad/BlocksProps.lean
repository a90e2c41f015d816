import Verif.Aad.BlocksModel

/-! # C42: storage of the tape -/

namespace Dal

open Dal.Blocks

variable {T : Type}

/-! ### What the tape should be: a list of records with their addresses, and the number of records at the mark -/

/-- The records so far, with the addresses they were given, and the number of records there were at the mark if it still counts. -/
structure Log (T : Type) where
  /-- the records, oldest first -/
  recs : List ((Nat × Nat) × List T)
  /-- the number of records at the mark -/
  mark : Option Nat

/-- One operation on the block list and on the log; records that do not fit into a block and rewinding without a mark are not
allowed; anything undefined in the block list is `none` as well. -/
def stepLog (B : Nat) (z : T) : Op T → BL T × Log T → Option (BL T × Log T)
  | .record vs, (s, g) => (emplace B z vs s).map fun r => (r.2, ⟨g.recs ++ [(r.1, vs)], g.mark⟩)
  | .mark, (s, g) => some (setMark B z s, ⟨g.recs, some g.recs.length⟩)
  | .rewindToMark, (s, g) =>
    match rewindToMark s, g.mark with
    | some s', some m => some (s', ⟨g.recs.take m, some m⟩)
    | _, _ => none
  | .rewind, (s, _) => some (rewind s, ⟨[], none⟩)
  | .clear, (s, _) => some (clear B z s, ⟨[], none⟩)

/-- A sequence of operations. -/
def runLog (B : Nat) (z : T) : List (Op T) → BL T × Log T → Option (BL T × Log T)
  | [], p => some p
  | o :: os, p => (stepLog B z o p).bind (runLog B z os)

/-- Is an operation allowed? -/
def Allowed (B : Nat) (g : Log T) : Op T → Prop
  | .record vs => 0 < vs.length ∧ vs.length ≤ B
  | .rewindToMark => g.mark ≠ none
  | _ => True

/-- Are all of them, each in turn? The log decides, not the block list. -/
def AllowedAll (B : Nat) : Option Nat → Nat → List (Op T) → Prop
  | _, _, [] => True
  | m, n, .record vs :: os => 0 < vs.length ∧ vs.length ≤ B ∧ AllowedAll B m (n + 1) os
  | _, n, .mark :: os => AllowedAll B (some n) n os
  | some m, _, .rewindToMark :: os => AllowedAll B (some m) m os
  | none, _, .rewindToMark :: _ => False
  | _, _, .rewind :: os => AllowedAll B none 0 os
  | _, _, .clear :: os => AllowedAll B none 0 os

/-- What is at an address. -/
def contents (s : BL T) (a : Nat × Nat) (n : Nat) : List (Option T) := (List.range n).map fun t => peek s.mem a.1 (a.2 + t)

/-! ### The invariant -/

private def Le (a b : Nat × Nat) : Prop := a.1 < b.1 ∨ (a.1 = b.1 ∧ a.2 ≤ b.2)

private def endOf (r : (Nat × Nat) × List T) : Nat × Nat := (r.1.1, r.1.2 + r.2.length)

private structure Inv (B : Nat) (s : BL T) (g : Log T) : Prop where
  cur : s.cur < s.mem.length
  next : s.next ≤ B
  blocks : ∀ b ∈ s.mem, b.length = B
  holds : ∀ r ∈ g.recs, ∀ t, t < r.2.length → peek s.mem r.1.1 (r.1.2 + t) = r.2[t]?
  before : ∀ r ∈ g.recs, Le (endOf r) (s.cur, s.next)
  marked : ∀ m, g.mark = some m → m ≤ g.recs.length ∧ ∃ p, s.mark = some p ∧ p.1 < s.mem.length ∧ p.2 ≤ B ∧
    Le p (s.cur, s.next) ∧ ∀ r ∈ g.recs.take m, Le (endOf r) p
  apart : g.recs.Pairwise (fun r q => Le (endOf r) q.1)

private theorem le_trans' {a b c : Nat × Nat} (h1 : Le a b) (h2 : Le b c) : Le a c := by
  unfold Le at *
  omega

private theorem inv_create (B : Nat) (z : T) : Inv B (create B z) ⟨[], none⟩ where
  cur := by simp [create, newBlock]
  next := by simp [create, newBlock]
  blocks := by simp [create, newBlock]
  holds := by simp
  before := by simp
  marked := by simp
  apart := List.Pairwise.nil

private theorem read_append {mem : List (List T)} {x : List (List T)} {b o : Nat} {v : T} (h : peek mem b o = some v) :
    peek (mem ++ x) b o = some v := by
  unfold peek at *
  cases hb : mem[b]? with
  | none => simp [hb] at h
  | some blk =>
    have hlt := (List.getElem?_eq_some_iff.1 hb).1
    rw [List.getElem?_append_left hlt, hb]
    rw [hb] at h
    exact h

private theorem inv_nextBlock {B : Nat} (z : T) {s : BL T} {g : Log T} (h : Inv B s g) :
    Inv B (nextBlock B z s) g ∧ (nextBlock B z s).next = 0 ∧ Le (s.cur, s.next) ((nextBlock B z s).cur, (nextBlock B z s).next) := by
  have hcur := h.cur
  unfold nextBlock
  split
  case isTrue hl =>
    have hle : Le (s.cur, s.next) (s.mem.length, 0) := Or.inl h.cur
    refine ⟨⟨by simp [newBlock], by simp [newBlock], ?_, ?_, ?_, ?_, h.apart⟩, rfl, hle⟩
    · intro b hb
      rcases List.mem_append.1 hb with hb | hb
      · exact h.blocks b hb
      · simp at hb; simp [hb]
    · intro r hr t ht
      have := h.holds r hr t ht
      rw [List.getElem?_eq_getElem ht] at this ⊢
      exact read_append this
    · intro r hr
      exact le_trans' (h.before r hr) hle
    · intro m hm
      obtain ⟨h1, p, h2, h3, h4, h5, h6⟩ := h.marked m hm
      exact ⟨h1, p, h2, by simp only [newBlock, List.length_append]; omega, h4, le_trans' h5 hle, h6⟩
  case isFalse hl =>
    have hle : Le (s.cur, s.next) (s.cur + 1, 0) := Or.inl (Nat.lt_succ_self _)
    refine ⟨⟨by dsimp only; omega, Nat.zero_le _, h.blocks, h.holds, ?_, ?_, h.apart⟩, rfl, hle⟩
    · intro r hr
      exact le_trans' (h.before r hr) hle
    · intro m hm
      obtain ⟨h1, p, h2, h3, h4, h5, h6⟩ := h.marked m hm
      exact ⟨h1, p, h2, h3, h4, le_trans' h5 hle, h6⟩

private theorem store_spec {B : Nat} {mem : List (List T)} {b o : Nat} {vs : List T} (hb : b < mem.length)
    (hm : ∀ x ∈ mem, x.length = B) (ho : o + vs.length ≤ B) : ∃ mem', store mem b o vs = some mem' ∧ mem'.length = mem.length ∧
      (∀ x ∈ mem', x.length = B) ∧ (∀ t, t < vs.length → peek mem' b (o + t) = vs[t]?) ∧
      ∀ b' o', (b' ≠ b ∨ o' < o ∨ o + vs.length ≤ o') → peek mem' b' o' = peek mem b' o' := by
  have hblk : mem[b].length = B := hm _ (List.getElem_mem hb)
  unfold store
  rw [List.getElem?_eq_getElem hb]
  dsimp only
  rw [if_pos (by omega)]
  have htl : (mem[b].take o).length = o := by simp; omega
  refine ⟨_, rfl, by simp, ?_, ?_, ?_⟩
  · intro x hx
    rcases List.mem_or_eq_of_mem_set hx with hx | rfl
    · exact hm x hx
    · simp only [List.length_append, htl, List.length_drop, hblk]; omega
  · intro t ht
    unfold peek
    rw [List.getElem?_set_self hb, Option.bind_some, List.append_assoc, List.getElem?_append_right (by omega), htl,
      List.getElem?_append_left (by omega)]
    congr 1
    omega
  · intro b' o' h
    unfold peek
    by_cases hbb : b' = b
    · subst hbb
      rw [List.getElem?_set_self hb, List.getElem?_eq_getElem hb, Option.bind_some, Option.bind_some]
      rcases h with h | h | h
      · exact absurd rfl h
      · rw [List.append_assoc, List.getElem?_append_left (by omega), List.getElem?_take_of_lt h]
      · rw [List.getElem?_append_right (by simp only [List.length_append, htl]; omega)]
        simp only [List.length_append, htl]
        rw [List.getElem?_drop]
        congr 1
        omega
    · rw [List.getElem?_set_ne (by omega)]

private theorem take_append_of_le {l x : List T} {m : Nat} (h : m ≤ l.length) : (l ++ x).take m = l.take m :=
  List.take_append_of_le_length h

private theorem inv_emplace {B : Nat} (z : T) {s : BL T} {g : Log T} (h : Inv B s g) {vs : List T} (hv : vs.length ≤ B) :
    ∃ a s', emplace B z vs s = some (a, s') ∧ Inv B s' ⟨g.recs ++ [(a, vs)], g.mark⟩ ∧
      (∀ r ∈ g.recs, Le (endOf r) a) := by
  unfold emplace
  obtain ⟨s1, hs1, hi, hle, hroom⟩ : ∃ s1, (if B - s.next < vs.length then nextBlock B z s else s) = s1 ∧ Inv B s1 g ∧
      Le (s.cur, s.next) (s1.cur, s1.next) ∧ s1.next + vs.length ≤ B := by
    have hnext := h.next
    split
    · obtain ⟨h1, h2, h3⟩ := inv_nextBlock z h
      exact ⟨_, rfl, h1, h3, by omega⟩
    · exact ⟨s, rfl, h, Or.inr ⟨rfl, Nat.le_refl _⟩, by omega⟩
  rw [hs1]
  obtain ⟨mem', e1, e2, e3, e4, e5⟩ := store_spec hi.cur hi.blocks hroom
  dsimp only
  rw [e1]
  refine ⟨(s1.cur, s1.next), _, rfl, ?_, fun r hr => hi.before r hr⟩
  have hle2 : Le (s1.cur, s1.next) (s1.cur, s1.next + vs.length) := Or.inr ⟨rfl, Nat.le_add_right _ _⟩
  refine ⟨by dsimp only; rw [e2]; exact hi.cur, hroom, e3, ?_, ?_, ?_, ?_⟩
  · intro r hr t ht
    rcases List.mem_append.1 hr with hr | hr
    · have hb := hi.before r hr
      rw [← hi.holds r hr t ht]
      apply e5
      unfold Le endOf at hb
      dsimp only at hb
      omega
    · simp only [List.mem_singleton] at hr
      subst hr
      exact e4 t ht
  · intro r hr
    rcases List.mem_append.1 hr with hr | hr
    · exact le_trans' (hi.before r hr) hle2
    · simp only [List.mem_singleton] at hr
      subst hr
      exact Or.inr ⟨rfl, Nat.le_refl _⟩
  · intro m hm
    obtain ⟨h1, p, h2, h3, h4, h5, h6⟩ := hi.marked m hm
    refine ⟨by simp only [List.length_append]; omega, p, h2, by dsimp only; omega, h4, le_trans' h5 hle2, ?_⟩
    dsimp only
    rw [take_append_of_le h1]
    exact h6
  · rw [List.pairwise_append]
    refine ⟨hi.apart, List.pairwise_singleton _ _, ?_⟩
    intro r hr q hq
    simp only [List.mem_singleton] at hq
    subst hq
    exact hi.before r hr

private theorem inv_step {B : Nat} (hB : 0 < B) (z : T) {s : BL T} {g : Log T} (h : Inv B s g) (o : Op T) (ha : Allowed B g o) :
    ∃ s' g', stepLog B z o (s, g) = some (s', g') ∧ Inv B s' g' := by
  cases o with
  | record vs =>
    obtain ⟨a, s', h1, h2, _⟩ := inv_emplace z h ha.2
    exact ⟨s', _, by simp only [stepLog, h1]; rfl, h2⟩
  | mark =>
    refine ⟨_, _, rfl, ?_⟩
    obtain ⟨s1, hs1, hi, hlt⟩ : ∃ s1, (if s.next = B then nextBlock B z s else s) = s1 ∧ Inv B s1 g ∧ s1.next < B := by
      have hnext := h.next
      split
      · obtain ⟨h1, h2, h3⟩ := inv_nextBlock z h
        exact ⟨_, rfl, h1, by omega⟩
      · exact ⟨s, rfl, h, by omega⟩
    unfold setMark
    rw [hs1]
    refine ⟨hi.cur, hi.next, hi.blocks, hi.holds, hi.before, ?_, hi.apart⟩
    intro m hm
    obtain rfl := Option.some.inj hm
    refine ⟨Nat.le_refl _, (s1.cur, s1.next), rfl, hi.cur, hi.next, Or.inr ⟨rfl, Nat.le_refl _⟩, ?_⟩
    intro r hr
    exact hi.before r (List.mem_of_mem_take hr)
  | rewindToMark =>
    cases hm : g.mark with
    | none => exact absurd hm ha
    | some m =>
      obtain ⟨h1, p, h2, h3, h4, h5, h6⟩ := h.marked m hm
      refine ⟨{ s with cur := p.1, next := p.2 }, ⟨g.recs.take m, some m⟩, by simp [stepLog, rewindToMark, h2, hm], ?_⟩
      refine ⟨h3, h4, h.blocks, fun r hr => h.holds r (List.mem_of_mem_take hr), h6, ?_, h.apart.sublist (List.take_sublist _ _)⟩
      intro m' hm'
      obtain rfl := Option.some.inj hm'
      refine ⟨by simp; omega, p, h2, h3, h4, Or.inr ⟨rfl, Nat.le_refl _⟩, ?_⟩
      dsimp only
      rw [List.take_take, Nat.min_self]
      exact h6
  | rewind =>
    refine ⟨_, _, rfl, ⟨?_, Nat.zero_le _, h.blocks, by simp, by simp, by simp, List.Pairwise.nil⟩⟩
    have := h.cur
    show 0 < s.mem.length
    omega
  | clear => exact ⟨_, _, rfl, inv_create B z⟩

private theorem allowed_head {B : Nat} {g : Log T} {o : Op T} {os : List (Op T)} (h : AllowedAll B g.mark g.recs.length (o :: os)) :
    Allowed B g o := by
  cases o with
  | record vs =>
    cases hm : g.mark <;> rw [hm] at h <;> exact ⟨h.1, h.2.1⟩
  | mark => trivial
  | rewindToMark =>
    intro hm
    rw [hm] at h
    exact h
  | rewind => trivial
  | clear => trivial

private theorem allowed_tail {B : Nat} (z : T) {s s' : BL T} {g g' : Log T} {o : Op T} {os : List (Op T)} (hi : Inv B s g)
    (h : AllowedAll B g.mark g.recs.length (o :: os)) (hs : stepLog B z o (s, g) = some (s', g')) :
    AllowedAll B g'.mark g'.recs.length os := by
  cases o with
  | record vs =>
    simp only [stepLog] at hs
    cases he : emplace B z vs s with
    | none => rw [he] at hs; exact absurd hs (by simp)
    | some r =>
      rw [he] at hs
      simp only [Option.map_some, Option.some.injEq, Prod.mk.injEq] at hs
      rw [← hs.2]
      dsimp only
      rw [List.length_append, List.length_singleton]
      cases hm : g.mark <;> rw [hm] at h <;> exact h.2.2
  | mark =>
    simp only [stepLog, Option.some.injEq, Prod.mk.injEq] at hs
    rw [← hs.2]
    cases hm : g.mark <;> rw [hm] at h <;> exact h
  | rewindToMark =>
    cases hm : g.mark with
    | none => rw [hm] at h; exact absurd h (by simp [AllowedAll])
    | some m =>
      obtain ⟨h1, _⟩ := hi.marked m hm
      rw [hm] at h
      simp only [stepLog, hm] at hs
      cases hr : rewindToMark s with
      | none => rw [hr] at hs; exact absurd hs (by simp)
      | some r =>
        rw [hr] at hs
        simp only [Option.some.injEq, Prod.mk.injEq] at hs
        rw [← hs.2]
        dsimp only
        rw [List.length_take, Nat.min_eq_left h1]
        exact h
  | rewind =>
    simp only [stepLog, Option.some.injEq, Prod.mk.injEq] at hs
    rw [← hs.2]
    cases hm : g.mark <;> rw [hm] at h <;> exact h
  | clear =>
    simp only [stepLog, Option.some.injEq, Prod.mk.injEq] at hs
    rw [← hs.2]
    cases hm : g.mark <;> rw [hm] at h <;> exact h

private theorem inv_run {B : Nat} (hB : 0 < B) (z : T) : ∀ (os : List (Op T)) (s : BL T) (g : Log T), Inv B s g →
    AllowedAll B g.mark g.recs.length os → ∃ s' g', runLog B z os (s, g) = some (s', g') ∧ Inv B s' g' := by
  intro os
  induction os with
  | nil => intro s g h _; exact ⟨s, g, rfl, h⟩
  | cons o os ih =>
    intro s g h ha
    obtain ⟨s1, g1, h1, h2⟩ := inv_step hB z h o (allowed_head ha)
    obtain ⟨s2, g2, h3, h4⟩ := ih s1 g1 h2 (allowed_tail z h ha h1)
    exact ⟨s2, g2, by rw [runLog, h1]; exact h3, h4⟩

/-- C42: after every allowed sequence of operations, nothing undefined has happened, every record still alive is at the address it
was given, with its contents, and no two of them share a cell. -/
theorem C42_stays {B : Nat} (hB : 0 < B) (z : T) (os : List (Op T)) (ha : AllowedAll B none 0 os) :
    ∃ s g, runLog B z os (create B z, ⟨[], none⟩) = some (s, g) ∧
      (∀ r ∈ g.recs, contents s r.1 r.2.length = r.2.map some) ∧
      g.recs.Pairwise (fun r q => r.1.1 < q.1.1 ∨ (r.1.1 = q.1.1 ∧ r.1.2 + r.2.length ≤ q.1.2)) := by
  obtain ⟨s, g, h1, h2⟩ := inv_run hB z os _ _ (inv_create B z) ha
  refine ⟨s, g, h1, ?_, h2.apart⟩
  intro r hr
  apply List.ext_getElem?
  intro t
  unfold contents
  rw [List.getElem?_map, List.getElem?_map]
  by_cases ht : t < r.2.length
  · rw [List.getElem?_range ht]
    simp only [Option.map_some]
    rw [h2.holds r hr t ht, List.getElem?_eq_getElem ht]
    rfl
  · rw [List.getElem?_eq_none (by simp; omega), List.getElem?_eq_none (by omega)]
    rfl

/-- C42: rewinding to the mark keeps exactly the records there were when the mark was set: whatever allowed operations other than
`Rewind`, `Clear` and `SetMark` come in between, the log is back to what it was. -/
theorem C42_rewind_to_mark {B : Nat} (hB : 0 < B) (z : T) (before after : List (Op T)) (ha : AllowedAll B none 0 before)
    (hafter : ∀ o ∈ after, ∃ vs, o = .record vs ∧ 0 < vs.length ∧ vs.length ≤ B) :
    ∃ s g s' g', runLog B z before (create B z, ⟨[], none⟩) = some (s, g) ∧
      runLog B z (before ++ .mark :: after ++ [.rewindToMark]) (create B z, ⟨[], none⟩) = some (s', g') ∧
      g'.recs = g.recs ∧ ∀ r ∈ g.recs, contents s' r.1 r.2.length = r.2.map some := by
  obtain ⟨s, g, h1, h2⟩ := inv_run hB z before _ _ (inv_create B z) ha
  have happ : ∀ (xs ys : List (Op T)) (p : BL T × Log T), runLog B z (xs ++ ys) p = (runLog B z xs p).bind (runLog B z ys) := by
    intro xs
    induction xs with
    | nil => intro ys p; rfl
    | cons x xs ih =>
      intro ys p
      rw [List.cons_append, runLog, runLog]
      cases stepLog B z x p with
      | none => rfl
      | some q => exact ih ys q
  obtain ⟨s1, g1, e1, i1⟩ := inv_step hB z h2 .mark trivial
  have hg1 : g1 = ⟨g.recs, some g.recs.length⟩ := by
    simp only [stepLog, Option.some.injEq, Prod.mk.injEq] at e1
    exact e1.2.symm
  -- recording only appends
  have hrec : ∀ (os : List (Op T)) (s : BL T) (q : Log T) (t : List ((Nat × Nat) × List T)), Inv B s q →
      (∀ o ∈ os, ∃ vs, o = .record vs ∧ 0 < vs.length ∧ vs.length ≤ B) → q.recs = g.recs ++ t → q.mark = some g.recs.length →
      ∃ s' q' t', runLog B z os (s, q) = some (s', q') ∧ Inv B s' q' ∧ q'.recs = g.recs ++ t' ∧ q'.mark = some g.recs.length := by
    intro os
    induction os with
    | nil => intro s q t h _ hq hm; exact ⟨s, q, t, rfl, h, hq, hm⟩
    | cons o os ih =>
      intro s q t h ho hq hm
      obtain ⟨vs, rfl, hv1, hv2⟩ := ho o (List.mem_cons_self ..)
      obtain ⟨a, s', g1, g2, _⟩ := inv_emplace z h hv2
      obtain ⟨s'', q'', t'', g3, g4, g5, g6⟩ := ih s' ⟨q.recs ++ [(a, vs)], q.mark⟩ (t ++ [(a, vs)]) g2
        (fun o' ho' => ho o' (List.mem_cons_of_mem _ ho')) (by simp [hq]) hm
      exact ⟨s'', q'', t'', by rw [runLog]; simp only [stepLog, g1]; exact g3, g4, g5, g6⟩
  obtain ⟨s2, g2, t2, e2, i2, e3, e4⟩ := hrec after s1 g1 [] i1 hafter (by simp [hg1]) (by simp [hg1])
  obtain ⟨s3, g3, e5, i3⟩ := inv_step hB z i2 .rewindToMark (by simp [Allowed, e4])
  have hg3 : g3.recs = g.recs := by
    simp only [stepLog, e4] at e5
    cases hr : rewindToMark s2 with
    | none => rw [hr] at e5; exact absurd e5 (by simp)
    | some r =>
      rw [hr] at e5
      simp only [Option.some.injEq, Prod.mk.injEq] at e5
      rw [← e5.2]
      dsimp only
      rw [e3, List.take_append_of_le_length (Nat.le_refl _), List.take_length]
  refine ⟨s, g, s3, g3, h1, ?_, hg3, ?_⟩
  · rw [happ, happ, h1]
    show (runLog B z (.mark :: after) (s, g)).bind _ = _
    rw [runLog, e1]
    show (runLog B z after (s1, g1)).bind _ = _
    rw [e2]
    show runLog B z [.rewindToMark] (s2, g2) = _
    rw [runLog, e5]
    rfl
  · intro r hr
    apply List.ext_getElem?
    intro t
    unfold contents
    rw [List.getElem?_map, List.getElem?_map]
    by_cases ht : t < r.2.length
    · rw [List.getElem?_range ht]
      simp only [Option.map_some]
      rw [i3.holds r (by rw [hg3]; exact hr) t ht, List.getElem?_eq_getElem ht]
      rfl
    · rw [List.getElem?_eq_none (by simp; omega), List.getElem?_eq_none (by omega)]
      rfl

/-! ### Going through the records, when each is one element as the nodes of the tape are -/

/-- Only single elements are recorded. -/
def Singles (os : List (Op T)) : Prop := ∀ o ∈ os, ∀ vs, o = .record vs → vs.length = 1

private structure Dense (B : Nat) (s : BL T) (g : Log T) : Prop where
  count : s.cur * B + s.next = g.recs.length
  address : ∀ i r, g.recs[i]? = some r → r.1 = (i / B, i % B) ∧ r.2.length = 1
  marked : ∀ m p, g.mark = some m → s.mark = some p → p.1 * B + p.2 = m

private theorem dense_create {B : Nat} (z : T) : Dense B (create B z) ⟨[], none⟩ where
  count := by simp [create, newBlock]
  address := by simp
  marked := by simp

private theorem dense_next {B : Nat} (z : T) {s : BL T} {g : Log T} (h : Dense B s g) (hf : s.next = B) :
    Dense B (nextBlock B z s) g := by
  have hc := h.count
  unfold nextBlock
  split
  case isTrue hl =>
    refine ⟨?_, h.address, h.marked⟩
    show s.mem.length * B + 0 = _
    rw [← hl, Nat.succ_mul]
    omega
  case isFalse hl =>
    refine ⟨?_, h.address, h.marked⟩
    show (s.cur + 1) * B + 0 = _
    rw [Nat.succ_mul]
    omega

private theorem divmod {B c n k : Nat} (hn : n < B) (h : c * B + n = k) : k / B = c ∧ k % B = n := by
  subst h
  constructor
  · rw [Nat.add_comm, Nat.add_mul_div_right _ _ (by omega), Nat.div_eq_of_lt hn, Nat.zero_add]
  · rw [Nat.add_comm, Nat.add_mul_mod_self_right, Nat.mod_eq_of_lt hn]

private theorem dense_step {B : Nat} (hB : 0 < B) (z : T) {s s' : BL T} {g g' : Log T} (hi : Inv B s g) (h : Dense B s g) (o : Op T)
    (h1 : ∀ vs, o = .record vs → vs.length = 1) (hs : stepLog B z o (s, g) = some (s', g')) : Dense B s' g' := by
  cases o with
  | record vs =>
    have hv := h1 vs rfl
    simp only [stepLog] at hs
    cases he : emplace B z vs s with
    | none => rw [he] at hs; exact absurd hs (by simp)
    | some r =>
      rw [he] at hs
      simp only [Option.map_some, Option.some.injEq, Prod.mk.injEq] at hs
      obtain ⟨hs1, hs2⟩ := hs
      unfold emplace at he
      obtain ⟨s1, e1, d1, hlt⟩ : ∃ s1, (if B - s.next < vs.length then nextBlock B z s else s) = s1 ∧ Dense B s1 g ∧ s1.next < B := by
        have hnext := hi.next
        split
        · have := (inv_nextBlock z hi).2.1
          exact ⟨_, rfl, dense_next z h (by omega), by omega⟩
        · exact ⟨s, rfl, h, by omega⟩
      rw [e1] at he
      dsimp only at he
      cases hst : store s1.mem s1.cur s1.next vs with
      | none => rw [hst] at he; exact absurd he (by simp)
      | some m =>
        rw [hst] at he
        simp only [Option.map_some, Option.some.injEq] at he
        rw [← he] at hs1 hs2
        dsimp only at hs1 hs2
        rw [← hs1, ← hs2]
        have hc := d1.count
        refine ⟨?_, ?_, d1.marked⟩
        · dsimp only
          rw [List.length_append, List.length_singleton, hv]
          omega
        · intro i r hr
          dsimp only at hr
          by_cases hil : i < g.recs.length
          · rw [List.getElem?_append_left hil] at hr
            exact d1.address i r hr
          · have hib := (List.getElem?_eq_some_iff.1 hr).1
            rw [List.length_append, List.length_singleton] at hib
            have hie : i = g.recs.length := by omega
            rw [List.getElem?_append_right (by omega), hie, Nat.sub_self] at hr
            simp only [List.getElem?_cons_zero, Option.some.injEq] at hr
            rw [← hr]
            obtain ⟨q1, q2⟩ := divmod hlt (hc.trans hie.symm)
            exact ⟨by rw [q1, q2], hv⟩
  | mark =>
    simp only [stepLog, Option.some.injEq, Prod.mk.injEq] at hs
    obtain ⟨hs1, hs2⟩ := hs
    rw [← hs1, ← hs2]
    obtain ⟨s1, e1, d1⟩ : ∃ s1, (if s.next = B then nextBlock B z s else s) = s1 ∧ Dense B s1 g := by
      split
      · exact ⟨_, rfl, dense_next z h (by omega)⟩
      · exact ⟨s, rfl, h⟩
    unfold setMark
    rw [e1]
    refine ⟨d1.count, d1.address, ?_⟩
    intro m p hm hp
    obtain rfl := Option.some.inj hm
    obtain rfl := Option.some.inj hp
    exact d1.count
  | rewindToMark =>
    cases hm : g.mark with
    | none =>
      simp only [stepLog, hm] at hs
      cases hr : rewindToMark s <;> rw [hr] at hs <;> exact absurd hs (by simp)
    | some m =>
      obtain ⟨k1, p, k2, k3, k4, k5, k6⟩ := hi.marked m hm
      simp only [stepLog, hm, rewindToMark, k2, Option.map_some, Option.some.injEq, Prod.mk.injEq] at hs
      obtain ⟨hs1, hs2⟩ := hs
      rw [← hs1, ← hs2]
      refine ⟨?_, ?_, ?_⟩
      · dsimp only
        rw [List.length_take, Nat.min_eq_left k1]
        exact h.marked m p hm k2
      · intro i r hr
        dsimp only at hr
        rw [List.getElem?_take] at hr
        split at hr
        · exact h.address i r hr
        · exact absurd hr (by simp)
      · intro m' p' hm' hp'
        obtain rfl := Option.some.inj hm'
        exact h.marked m p' hm (k2.trans hp')
  | rewind =>
    simp only [stepLog, Option.some.injEq, Prod.mk.injEq] at hs
    obtain ⟨hs1, hs2⟩ := hs
    rw [← hs1, ← hs2]
    exact ⟨by simp [rewind], by simp, by simp⟩
  | clear =>
    simp only [stepLog, Option.some.injEq, Prod.mk.injEq] at hs
    obtain ⟨hs1, hs2⟩ := hs
    rw [← hs1, ← hs2]
    exact dense_create z

private theorem dense_run {B : Nat} (hB : 0 < B) (z : T) : ∀ (os : List (Op T)) (s : BL T) (g : Log T), Inv B s g → Dense B s g →
    Singles os → AllowedAll B g.mark g.recs.length os → ∃ s' g', runLog B z os (s, g) = some (s', g') ∧ Inv B s' g' ∧ Dense B s' g' := by
  intro os
  induction os with
  | nil => intro s g h d _ _; exact ⟨s, g, rfl, h, d⟩
  | cons o os ih =>
    intro s g h d hs ha
    obtain ⟨s1, g1, h1, h2⟩ := inv_step hB z h o (allowed_head ha)
    have d1 := dense_step hB z h d o (hs o (List.mem_cons_self ..)) h1
    obtain ⟨s2, g2, h3, h4, h5⟩ := ih s1 g1 h2 d1 (fun o' ho' => hs o' (List.mem_cons_of_mem _ ho')) (allowed_tail z h ha h1)
    exact ⟨s2, g2, by rw [runLog, h1]; exact h3, h4, h5⟩

private theorem succ_divmod {B i : Nat} (hB : 0 < B) :
    (i % B + 1 = B → (i + 1) / B = i / B + 1 ∧ (i + 1) % B = 0) ∧ (i % B + 1 ≠ B → (i + 1) / B = i / B ∧ (i + 1) % B = i % B + 1) := by
  have h := Nat.div_add_mod i B
  have hlt := Nat.mod_lt i hB
  constructor
  · intro he
    have : (i / B + 1) * B + 0 = i + 1 := by
      rw [Nat.succ_mul, Nat.mul_comm (i / B) B]
      omega
    exact divmod hB this
  · intro hne
    have : i / B * B + (i % B + 1) = i + 1 := by
      rw [Nat.mul_comm (i / B) B]
      omega
    exact divmod (by omega) this

private theorem iterate_ok {B : Nat} (hB : 0 < B) {s : BL T} {g : Log T} (hi : Inv B s g) (d : Dense B s g) (hn : s.next ≠ B) :
    ∀ (k i fuel : Nat), i + k = g.recs.length → k < fuel →
    (iterate B s fuel (i / B) (i % B)) = some ((g.recs.drop i).map (·.2)).flatten := by
  have hnext := hi.next
  have hcur := hi.cur
  obtain ⟨q1, q2⟩ := divmod (show s.next < B by omega) d.count
  intro k
  induction k with
  | zero =>
    intro i fuel hik hf
    obtain ⟨fuel, rfl⟩ : ∃ f, fuel = f + 1 := ⟨fuel - 1, by omega⟩
    have hie : i = g.recs.length := by omega
    rw [iterate, hie, if_pos ⟨q1, q2⟩, List.drop_length]
    rfl
  | succ k ih =>
    intro i fuel hik hf
    obtain ⟨fuel, rfl⟩ : ∃ f, fuel = f + 1 := ⟨fuel - 1, by omega⟩
    have hil : i < g.recs.length := by omega
    have hne : ¬ (i / B = s.cur ∧ i % B = s.next) := by
      rintro ⟨h1, h2⟩
      have h3 := Nat.div_add_mod i B
      have h4 := d.count
      rw [h1, h2, Nat.mul_comm] at h3
      omega
    obtain ⟨a1, a2⟩ := d.address i _ (List.getElem?_eq_getElem hil)
    obtain ⟨v, hv⟩ : ∃ v, g.recs[i].2 = [v] := List.length_eq_one_iff.1 a2
    have hrd := hi.holds _ (List.getElem_mem hil) 0 (by omega)
    rw [a1, hv] at hrd
    simp only [Nat.add_zero, List.getElem?_cons_zero] at hrd
    rw [iterate, if_neg hne, hrd]
    dsimp only
    rw [List.drop_eq_getElem_cons hil, List.map_cons, List.flatten_cons, hv]
    obtain ⟨sd1, sd2⟩ := succ_divmod (i := i) hB
    by_cases he : i % B + 1 = B
    · obtain ⟨c1, c2⟩ := sd1 he
      have hlt : i / B + 1 < s.mem.length := by
        have h5 : (i + 1) / B ≤ g.recs.length / B := Nat.div_le_div_right (by omega)
        rw [q1, c1] at h5
        omega
      rw [if_pos he, if_pos hlt, ← c1, ← c2, ih (i + 1) fuel (by omega) (by omega)]
      rfl
    · obtain ⟨c1, c2⟩ := sd2 he
      rw [if_neg he, ← c1, ← c2, ih (i + 1) fuel (by omega) (by omega)]
      rfl

/-- C42: going from `Begin()` to `End()` visits exactly the recorded elements in order, as long as the current block is not exactly
full.  Missing: that case, where it is undefined, see below. -/
theorem C42_iteration_partial {B : Nat} (hB : 0 < B) (z : T) (os : List (Op T)) (ha : AllowedAll B none 0 os) (hs : Singles os) :
    ∃ s g, runLog B z os (create B z, ⟨[], none⟩) = some (s, g) ∧
      (s.next ≠ B → iterate B s (rounds B s) 0 0 = some (g.recs.map (·.2)).flatten) := by
  obtain ⟨s, g, h1, h2, h3⟩ := dense_run hB z os _ _ (inv_create B z) (dense_create z) hs ha
  refine ⟨s, g, h1, fun hn => ?_⟩
  have hcur := h2.cur
  have hnext := h2.next
  have := iterate_ok hB h2 h3 hn g.recs.length 0 (rounds B s) (by omega) (by
    unfold rounds
    have h4 := h3.count
    have h5 : s.cur * B + B ≤ s.mem.length * B := by
      rw [← Nat.succ_mul]
      exact Nat.mul_le_mul_right B hcur
    omega)
  simpa using this

/-- C42, not so: as soon as the current block is exactly full, going from `Begin()` to `End()` runs past the last block, whatever has
happened before and wherever it starts. -/
theorem C42_iteration_full_violated {B : Nat} (hB : 0 < B) (s : BL T) (hf : s.next = B) (fuel b o : Nat) (ho : o < B) :
    iterate B s fuel b o = none := by
  induction fuel generalizing b o with
  | zero => rfl
  | succ fuel ih =>
    rw [iterate, if_neg (by omega)]
    cases peek s.mem b o with
    | none => rfl
    | some v =>
      dsimp only
      split
      · split
        · rw [ih (b + 1) 0 hB]; rfl
        · rfl
      · rw [ih b (o + 1) (by omega)]; rfl

/-- C42, not so: a block gets exactly full by recording as many elements as it holds. -/
theorem C42_full_block_violated : ∃ s g, runLog 2 0 [.record [7], .record [8]] (create 2 0, ⟨[], none⟩) = some (s, g) ∧
    (g.recs.map (·.2)).flatten = [7, 8] ∧ ∀ fuel, iterate 2 s fuel 0 0 = none :=
  ⟨⟨[[7, 8]], 0, 2, none⟩, ⟨[((0, 0), [7]), ((0, 1), [8])], none⟩, rfl, rfl,
    fun fuel => C42_iteration_full_violated (B := 2) (by decide) ⟨[[7, 8]], 0, 2, none⟩ rfl fuel 0 0 (by decide)⟩

private theorem find_ok {B : Nat} (hB : 0 < B) (s : BL T) (i : Nat) : ∀ (k b o fuel : Nat), o ≤ B → b * B + o = i + 1 + k → k < fuel →
    find B s (i / B, i % B) fuel b o = some (i / B, i % B) := by
  intro k
  induction k with
  | zero =>
    intro b o fuel ho hk hf
    obtain ⟨fuel, rfl⟩ : ∃ f, fuel = f + 1 := ⟨fuel - 1, by omega⟩
    have hne : ¬ (b = 0 ∧ o = 0) := by
      rintro ⟨rfl, rfl⟩
      omega
    rw [find, if_neg hne]
    have hp : (if o = 0 then (b - 1, B - 1) else (b, o - 1)) = (i / B, i % B) := by
      split
      case isTrue h0 =>
        obtain ⟨b, rfl⟩ : ∃ c, b = c + 1 := ⟨b - 1, by omega⟩
        rw [Nat.succ_mul] at hk
        obtain ⟨q1, q2⟩ := divmod (c := b) (n := B - 1) (k := i) (B := B) (by omega) (by omega)
        rw [q1, q2, Nat.add_sub_cancel]
      case isFalse h0 =>
        obtain ⟨q1, q2⟩ := divmod (c := b) (n := o - 1) (k := i) (B := B) (by omega) (by omega)
        rw [q1, q2]
    dsimp only
    rw [hp, if_pos rfl]
  | succ k ih =>
    intro b o fuel ho hk hf
    obtain ⟨fuel, rfl⟩ : ∃ f, fuel = f + 1 := ⟨fuel - 1, by omega⟩
    have hne : ¬ (b = 0 ∧ o = 0) := by
      rintro ⟨rfl, rfl⟩
      omega
    rw [find, if_neg hne]
    dsimp only
    obtain ⟨p, hp, hp1, hp2⟩ : ∃ p, (if o = 0 then (b - 1, B - 1) else (b, o - 1)) = p ∧ p.2 ≤ B ∧ p.1 * B + p.2 = i + 1 + k := by
      split
      case isTrue h0 =>
        obtain ⟨b, rfl⟩ : ∃ c, b = c + 1 := ⟨b - 1, by omega⟩
        rw [Nat.succ_mul] at hk
        refine ⟨_, rfl, by dsimp only; omega, ?_⟩
        dsimp only
        rw [Nat.add_sub_cancel]
        omega
      case isFalse h0 => exact ⟨_, rfl, by dsimp only; omega, by dsimp only; omega⟩
    rw [hp]
    split
    case isTrue he => rw [he]
    case isFalse he => exact ih p.1 p.2 fuel hp1 hp2 (by omega)

/-- C42: `Find` finds every element alive, also when the current block is exactly full. -/
theorem C42_find {B : Nat} (hB : 0 < B) (z : T) (os : List (Op T)) (ha : AllowedAll B none 0 os) (hs : Singles os) :
    ∃ s g, runLog B z os (create B z, ⟨[], none⟩) = some (s, g) ∧
      ∀ r ∈ g.recs, find B s r.1 (rounds B s) s.cur s.next = some r.1 := by
  obtain ⟨s, g, h1, h2, h3⟩ := dense_run hB z os _ _ (inv_create B z) (dense_create z) hs ha
  refine ⟨s, g, h1, fun r hr => ?_⟩
  obtain ⟨i, hi, rfl⟩ := List.mem_iff_getElem.1 hr
  obtain ⟨a1, _⟩ := h3.address i _ (List.getElem?_eq_getElem hi)
  rw [a1]
  have hcur := h2.cur
  have hnext := h2.next
  have h4 := h3.count
  refine find_ok hB s i (g.recs.length - 1 - i) s.cur s.next _ hnext (by omega) ?_
  unfold rounds
  have h5 : s.cur * B + B ≤ s.mem.length * B := by
    rw [← Nat.succ_mul]
    exact Nat.mul_le_mul_right B hcur
  omega

/-- A record longer than a block: whatever was done before, the new block is too short for it and it is written past the end. -/
theorem C42_too_long_violated {B : Nat} (hB : 0 < B) (z : T) (os : List (Op T)) (ha : AllowedAll B none 0 os) (vs : List T) (hv : B < vs.length) :
    ∃ s g, runLog B z os (create B z, ⟨[], none⟩) = some (s, g) ∧ emplace B z vs s = none := by
  obtain ⟨s, g, h1, h2⟩ := inv_run hB z os _ _ (inv_create B z) ha
  refine ⟨s, g, h1, ?_⟩
  have hblk : ∀ b ∈ (nextBlock B z s).mem, b.length = B := by
    intro b hb
    rw [nextBlock] at hb
    split at hb
    · rw [newBlock] at hb
      rcases List.mem_append.1 hb with hb | hb
      · exact h2.blocks b hb
      · rw [List.mem_singleton.1 hb, List.length_replicate]
    · exact h2.blocks b hb
  rw [emplace, if_pos (by omega), store]
  cases hb : (nextBlock B z s).mem[(nextBlock B z s).cur]? with
  | none => rfl
  | some blk =>
    dsimp only
    rw [if_neg (by rw [hblk blk (List.mem_of_getElem? hb)]; omega)]
    rfl

example : emplace 2 0 [1, 2, 3] (create 2 0) = none := by
  obtain ⟨s, g, h1, h2⟩ := C42_too_long_violated (B := 2) (by decide) 0 [] trivial [1, 2, 3] (by decide)
  cases h1; exact h2

/-- C42, not so: `Clear` leaves the mark behind, and rewinding to it then is undefined. -/
theorem C42_clear_mark_violated (B : Nat) (z : T) (s : BL T) : rewindToMark (clear B z (setMark B z s)) = none := rfl

/-! ### The hypotheses hold -/

example : AllowedAll 2 none 0 [.record [1], .record [2], .mark, .record [3], .rewindToMark, .record [4], .rewind, .record [5]] ∧
    Singles [.record [1], .record [2], .mark, .record [3], .rewindToMark, .record [4], .rewind, .record [5]] := by
  refine ⟨by simp [AllowedAll], ?_⟩
  intro o ho vs hv
  subst hv
  simp at ho
  rcases ho with rfl | rfl | rfl | rfl | rfl <;> rfl

end Dal

import Verif.Stream.Lemmas
/-!
# C25, C27, C52: input streams, file descriptor loops, captured text
-/
namespace Verif.Stream
open Verif Spec

/-! ## C27 -/

/-- **C27**, writing: whatever the operating system answers (positive counts within the request, as
it promises), the call never fails an assertion; what the descriptor received is always a prefix of
the buffer, it is all of it exactly if the call returns true, and the call returns false only after
the system reported a failure. -/
theorem C27_write (os : List OsWrite) (buf : List Byte) :
    match fdWrite os buf with
    | .returned true d => d = buf
    | .returned false d => d <+: buf ∧ (OsWrite.failed ∈ os ∨ OsWrite.sent 0 ∈ os)
    | .blocked d => d <+: buf ∧ d.length < buf.length
    | .assertion => ∃ k, OsWrite.sent k ∈ os ∧
        ∃ d, d <+: buf ∧ (buf.drop d.length).length < k := by
  induction os generalizing buf with
  | nil =>
    cases buf with
    | nil => simp [fdWrite]
    | cons b bs => simp [fdWrite]
  | cons o os ih =>
    cases buf with
    | nil => simp [fdWrite]
    | cons b bs =>
      cases o with
      | failed => simp [fdWrite]
      | sent k =>
        rw [fdWrite]
        by_cases h0 : k = 0
        · subst h0; simp
        · rw [if_neg h0]
          by_cases h1 : k > (b :: bs).length
          · rw [if_pos h1]
            exact ⟨k, by simp, [], by simp, by simpa using h1⟩
          · rw [if_neg h1]
            have hi := ih ((b :: bs).drop k)
            have happ := List.take_append_drop k (b :: bs)
            have hlen : ((b :: bs).take k).length = k := by
              rw [List.length_take]; omega
            cases hr : fdWrite os ((b :: bs).drop k) with
            | returned ok d =>
              rw [hr] at hi
              cases ok with
              | true =>
                simp only [WriteOutcome.after] at hi ⊢
                rw [hi, happ]
              | false =>
                simp only [WriteOutcome.after] at hi ⊢
                refine ⟨?_, ?_⟩
                · conv => rhs; rw [← happ]
                  exact (List.prefix_append_right_inj _).mpr hi.1
                · rcases hi.2 with h | h
                  · exact Or.inl (by simp [h])
                  · exact Or.inr (by simp [h])
            | blocked d =>
              rw [hr] at hi
              simp only [WriteOutcome.after] at hi ⊢
              refine ⟨?_, ?_⟩
              · conv => rhs; rw [← happ]
                exact (List.prefix_append_right_inj _).mpr hi.1
              · rw [List.length_append, hlen]
                have := hi.2
                rw [List.length_drop] at this
                omega
            | assertion =>
              rw [hr] at hi
              obtain ⟨j, h2, d, h3, h4⟩ := hi
              simp only [WriteOutcome.after]
              refine ⟨j, by simp [h2], (b :: bs).take k ++ d, ?_, ?_⟩
              · conv => rhs; rw [← happ]
                exact (List.prefix_append_right_inj _).mpr h3
              · rw [List.length_append, hlen]
                rw [List.drop_drop] at h4
                exact h4

example : fdWrite [.sent 2, .sent 1, .sent 5] [1, 2, 3, 4, 5, 6, 7, 8] =
    .returned true [1, 2, 3, 4, 5, 6, 7, 8] := by decide

/-- The bytes an operating system script delivers before end of file or an error. -/
def available : List OsRead → List Byte
  | [] => []
  | .eintr :: os => available os
  | .failed :: _ => []
  | .data [] :: _ => []
  | .data (b :: bs) :: os => (b :: bs) ++ available os

theorem available_readSome {os os' : List OsRead} {bs : List Byte}
    (h : fdReadSome os = some (bs, os')) :
    (bs = [] → available os = []) ∧ (bs ≠ [] → available os = bs ++ available os') := by
  induction os with
  | nil => simp [fdReadSome] at h
  | cons o os ih =>
    cases o with
    | eintr =>
      simp only [fdReadSome] at h
      simpa [available] using ih h
    | failed => simp [fdReadSome] at h
    | data b =>
      simp only [fdReadSome, Option.some.injEq, Prod.mk.injEq] at h
      obtain ⟨rfl, rfl⟩ := h
      cases b with
      | nil => simp [available]
      | cons x xs => simp [available]

/-- **C27**, reading: if the call returns, then it returns true exactly if the buffer was filled,
the bytes stored are the first bytes the descriptor delivered, in order, and it returns false only
at end of file, having stored everything there was.  Interrupted calls are invisible. -/
theorem C27_read (os : List OsRead) (n : Nat) (ok : Bool) (bs : List Byte)
    (h : pipeRead os n = some (ok, bs)) :
    (ok = true ∧ bs.length = n ∧ bs <+: available os) ∨
    (ok = false ∧ bs.length < n ∧ bs = available os) := by
  induction hl : os.length using Nat.strongRecOn generalizing os n ok bs with
  | ind l ih =>
    rw [pipeRead.eq_def] at h
    by_cases h0 : n = 0
    · rw [if_pos h0] at h
      simp only [Option.some.injEq, Prod.mk.injEq] at h
      obtain ⟨rfl, rfl⟩ := h
      exact Or.inl ⟨rfl, by simp [h0], by simp⟩
    · rw [if_neg h0] at h
      split at h
      · simp at h
      · rename_i r os' hr
        obtain ⟨a1, a2⟩ := available_readSome hr
        by_cases hz : r.length = 0
        · rw [if_pos hz] at h
          simp only [Option.some.injEq, Prod.mk.injEq] at h
          obtain ⟨rfl, rfl⟩ := h
          exact Or.inr ⟨rfl, by simp; omega, (a1 (List.length_eq_zero_iff.mp hz)).symm⟩
        · rw [if_neg hz] at h
          have hav := a2 (fun he => hz (by rw [he]; rfl))
          by_cases hg : r.length > n
          · rw [if_pos hg] at h; simp at h
          · rw [if_neg hg] at h
            split at h
            · simp at h
            · rename_i ok' rest hp
              simp only [Option.some.injEq, Prod.mk.injEq] at h
              obtain ⟨rfl, rfl⟩ := h
              have := ih os'.length (by have := fdReadSome_length hr; omega) os' (n - r.length) ok'
                rest hp rfl
              rw [hav, List.length_append]
              rcases this with ⟨b1, b2, b3⟩ | ⟨b1, b2, b3⟩
              · exact Or.inl ⟨b1, by omega, (List.prefix_append_right_inj _).mpr b3⟩
              · exact Or.inr ⟨b1, by omega, by rw [b3]⟩

/-- The operating system keeps its promises towards a reader wanting `n` bytes: it answers, without
errors, never with more than was asked for. -/
def Obeys : Nat → List OsRead → Prop
  | 0, _ => True
  | _ + 1, [] => False
  | n + 1, .eintr :: os => Obeys (n + 1) os
  | _ + 1, .failed :: _ => False
  | n + 1, .data bs :: os => bs.length ≤ n + 1 ∧ (bs = [] ∨ Obeys (n + 1 - bs.length) os)

theorem pipeRead_data (bs : List Byte) (os : List OsRead) (n : Nat) (h0 : n ≠ 0) :
    pipeRead (.data bs :: os) n =
      if bs.length = 0 then some (false, [])
      else if bs.length > n then none
      else
        match pipeRead os (n - bs.length) with
        | none => none
        | some (ok, rest) => some (ok, bs ++ rest) := by
  rw [pipeRead.eq_def, if_neg h0]
  split
  · rename_i hh; simp [fdReadSome] at hh
  · rename_i hh
    simp only [fdReadSome, Option.some.injEq, Prod.mk.injEq] at hh
    obtain ⟨rfl, rfl⟩ := hh
    rfl

theorem pipeRead_eintr (os : List OsRead) (n : Nat) :
    pipeRead (.eintr :: os) n = pipeRead os n := by
  rw [pipeRead.eq_def (.eintr :: os), pipeRead.eq_def os]
  rfl

/-- **C27**, reading: with an operating system that keeps its promises the call returns. -/
theorem C27_read_returns (os : List OsRead) (n : Nat) (h : Obeys n os) :
    ∃ r, pipeRead os n = some r := by
  induction os generalizing n with
  | nil =>
    cases n with
    | zero => exact ⟨_, by rw [pipeRead.eq_def]; rfl⟩
    | succ n => exact absurd h (by simp [Obeys])
  | cons o os ih =>
    cases n with
    | zero => exact ⟨_, by rw [pipeRead.eq_def]; rfl⟩
    | succ n =>
      cases o with
      | eintr =>
        rw [pipeRead_eintr]
        exact ih (n + 1) h
      | failed => exact absurd h (by simp [Obeys])
      | data bs =>
        rw [pipeRead_data _ _ _ (by omega)]
        obtain ⟨h1, h2⟩ := h
        by_cases hz : bs.length = 0
        · rw [if_pos hz]; exact ⟨_, rfl⟩
        · rw [if_neg hz, if_neg (by omega)]
          rcases h2 with h2 | h2
          · exact absurd (by rw [h2]; rfl) hz
          · obtain ⟨r, hr⟩ := ih _ h2
            rw [hr]
            exact ⟨_, rfl⟩

example : Obeys 4 [.data [1], .eintr, .data [2, 3], .data []] := by simp [Obeys]

example : pipeRead [.data [1], .eintr, .data [2, 3], .data [4]] 4 = some (true, [1, 2, 3, 4]) := by
  simp [pipeRead, fdReadSome]

/-! ## C25 -/

/-- One request against the model; `ms` are the positions remembered so far. -/
def implStep (s : InS) (ms : List Mark) : InOp → Option (InRes × InS × List Mark)
  | .readByte => (readByte s).map fun r => (.byte r.1, r.2, ms)
  | .peek => (peek s).map fun r => (.peeked r.1, r.2, ms)
  | .read n => (Stream.read n s).map fun r => (.bytes r.1 r.2.1, r.2.2, ms)
  | .skip n => (skip n s).map fun r => (.flag r.1, r.2, ms)
  | .mark => some (.done, s, ms ++ [Stream.mark s])
  | .rewind i =>
    match ms[i]? with
    | none => some (.done, s, ms)
    | some m => (Stream.rewind m s).map fun s' => (.done, s', ms)

/-- A sequence of requests against the model. -/
def implRun (s : InS) (ms : List Mark) : List InOp → Option (List InRes × InS × List Mark)
  | [] => some ([], s, ms)
  | op :: ops =>
    match implStep s ms op with
    | none => none
    | some (r, s', ms') =>
      match implRun s' ms' ops with
      | none => none
      | some (rs, s'', ms'') => some (r :: rs, s'', ms'')

/-- A remembered position stands for the absolute position `p`. -/
def MarkOk (chain : List Block) (m : Mark) (p : Nat) : Prop :=
  ∃ b : Block, chain[m.idx]? = some b ∧ m.ofs ≤ b.used.length ∧ p = b.fileOffset + m.ofs

theorem MarkOk.ext {a b : List Block} {m : Mark} {p : Nat} (h : MarkOk a m p) (he : Ext a b) :
    MarkOk b m p := by
  obtain ⟨x, h1, h2, h3⟩ := h
  obtain ⟨y, e1, e2, e3⟩ := he _ _ h1
  exact ⟨y, e1, by omega, by omega⟩

/-- Pairwise relation of two lists of the same length. -/
inductive All2 {α β : Type} (R : α → β → Prop) : List α → List β → Prop
  | nil : All2 R [] []
  | cons {a b l l'} : R a b → All2 R l l' → All2 R (a :: l) (b :: l')

/-- The remembered positions agree. -/
def MarksOk (chain : List Block) (ms : List Mark) (ps : List Nat) : Prop :=
  All2 (MarkOk chain) ms ps

theorem MarksOk.ext {a b : List Block} {ms : List Mark} {ps : List Nat} (h : MarksOk a ms ps)
    (he : Ext a b) : MarksOk b ms ps := by
  induction h with
  | nil => exact All2.nil
  | cons h _ ih => exact All2.cons (h.ext he) ih

/-- The simulation relation. -/
structure Sim (s : InS) (ms : List Mark) (t : InState) : Prop where
  inv : Inv s
  clean : Clean s.src
  data : t.data = s.data
  pos : t.pos = s.pos
  eof : t.eof = s.eof
  atEnd : s.eof = true → s.unread = []
  marks : MarksOk s.chain ms t.marks

theorem Sim.rest {s : InS} {ms : List Mark} {t : InState} (h : Sim s ms t) :
    t.data.drop t.pos = s.unread := by rw [h.data, h.pos, h.inv.unread_eq]

theorem Sim.restLength {s : InS} {ms : List Mark} {t : InState} (h : Sim s ms t) :
    t.data.length - t.pos = s.unread.length := by
  rw [← h.rest, List.length_drop]

theorem forall₂_append_one {α β : Type} {R : α → β → Prop} {l : List α} {l' : List β} {a : α} {b : β}
    (h : All2 R l l') (hab : R a b) : All2 R (l ++ [a]) (l' ++ [b]) := by
  induction h with
  | nil => exact All2.cons hab All2.nil
  | cons h _ ih => exact All2.cons h ih

theorem forall₂_getElem? {α β : Type} {R : α → β → Prop} {l : List α} {l' : List β}
    (h : All2 R l l') (i : Nat) :
    (l[i]? = none ∧ l'[i]? = none) ∨ ∃ a b, l[i]? = some a ∧ l'[i]? = some b ∧ R a b := by
  induction h generalizing i with
  | nil => exact Or.inl ⟨by simp, by simp⟩
  | cons h _ ih =>
    cases i with
    | zero => exact Or.inr ⟨_, _, rfl, rfl, h⟩
    | succ i => simpa using ih i

theorem chain_mark (s : InS) (h : Inv s) : MarkOk s.chain (Stream.mark s) s.pos :=
  ⟨s.blk, by simp [InS.chain, Stream.mark], h.cur, rfl⟩

theorem unread_cons {s : InS} (h : s.avail ≠ []) :
    ∃ b tl, s.avail = b :: tl ∧ s.unread = b :: (tl ++ bytesOf s.next ++ s.src.flatten) := by
  cases ha : s.avail with
  | nil => exact absurd ha h
  | cons b tl => exact ⟨b, tl, rfl, by simp [InS.unread, ha]⟩

theorem implStep_sim (s : InS) (ms : List Mark) (t : InState) (h : Sim s ms t) (op : InOp) :
    ∃ s' ms', implStep s ms op = some ((step t op).1, s', ms') ∧ Sim s' ms' (step t op).2 := by
  have hrest := h.rest
  have hlen := h.restLength
  cases op with
  | readByte =>
    obtain ⟨k, s1, e1, e2, e3, e4⟩ := tryMake_one s h.inv h.clean
    have hun := Same.unread h.inv e2
    rcases e4 with ⟨hk, hav, heof⟩ | ⟨hk, hav, hnx, hsrc, heof⟩
    · obtain ⟨b, tl, hb, hu⟩ := unread_cons hav
      have hk' : ¬ k = 0 := by omega
      obtain ⟨a1, a2, a3, a4⟩ := advance_same s1 e2.inv 1 (by rw [hb]; simp)
      refine ⟨_, ms, by simp only [implStep, readByte, e1, hk', ↓reduceIte, hb, Option.map_some]; simp only [step, hrest, ← hun, hu]; rfl, ?_⟩
      simp only [step, hrest, ← hun, hu]
      refine ⟨a1, e3, ?_, ?_, ?_, ?_, ?_⟩
      · rw [a2, e2.data]; exact h.data
      · rw [a3, e2.pos, ← h.pos]
      · rw [h.eof]; exact heof.symm
      · intro he
        exfalso
        have : s.unread = [] := h.atEnd (by rw [← heof]; exact he)
        rw [← hun, hu] at this
        simp at this
      · exact h.marks.ext e2.ext
    · have h0 : s1.unread = [] := unread_nil_of hav hnx hsrc
      refine ⟨s1, ms, ?_, ?_⟩
      · simp only [implStep, readByte, e1, hk, ↓reduceIte, Option.map_some]
        simp only [step, hrest, ← hun, h0]
      · simp only [step, hrest, ← hun, h0]
        exact ⟨e2.inv, e3, by rw [e2.data]; exact h.data, by rw [e2.pos]; exact h.pos, heof.symm,
          fun _ => h0, h.marks.ext e2.ext⟩
  | peek =>
    obtain ⟨k, s1, e1, e2, e3, e4⟩ := tryMake_one s h.inv h.clean
    have hun := Same.unread h.inv e2
    rcases e4 with ⟨hk, hav, heof⟩ | ⟨hk, hav, hnx, hsrc, heof⟩
    · obtain ⟨b, tl, hb, hu⟩ := unread_cons hav
      have hk' : ¬ k = 0 := by omega
      refine ⟨s1, ms, ?_, ?_⟩
      · simp only [implStep, peek, e1, hk', ↓reduceIte, hb, Option.map_some]
        simp only [step, hrest, ← hun, hu]
      · simp only [step, hrest, ← hun, hu]
        refine ⟨e2.inv, e3, by rw [e2.data]; exact h.data, by rw [e2.pos]; exact h.pos, ?_, ?_,
          h.marks.ext e2.ext⟩
        · rw [h.eof]; exact heof.symm
        · intro he
          rw [hun]
          exact h.atEnd (by rw [← heof]; exact he)
    · have h0 : s1.unread = [] := unread_nil_of hav hnx hsrc
      refine ⟨s1, ms, ?_, ?_⟩
      · simp only [implStep, peek, e1, hk, ↓reduceIte, Option.map_some]
        simp only [step, hrest, ← hun, h0]
      · simp only [step, hrest, ← hun, h0]
        exact ⟨e2.inv, e3, by rw [e2.data]; exact h.data, by rw [e2.pos]; exact h.pos, heof.symm,
          fun _ => h0, h.marks.ext e2.ext⟩
  | read n =>
    by_cases hfast : n > s.avail.length
    · by_cases he : s.eof = true
      · refine ⟨s, ms, ?_, ?_⟩
        · simp only [implStep, Stream.read, hfast, he, ↓reduceIte, Option.map_some, step, h.eof]
        · simp only [step, h.eof, he, ↓reduceIte]
          exact h
      · have hef : s.eof = false := by simpa using he
        obtain ⟨s', hs'⟩ := readLoop_spec n n s [] (Nat.le_refl _) h.inv h.clean
        rcases hs' with ⟨i1, i2, i3, i4⟩ | ⟨i1, i2, i3, i4⟩
        · refine ⟨s', ms, ?_, ?_⟩
          · simp only [implStep, Stream.read, hfast, hef, ↓reduceIte, i4, Option.map_some, step,
              h.eof, hlen, i1, hrest, List.nil_append, Bool.false_eq_true]
          · simp only [step, h.eof, hef, hlen, i1, ↓reduceIte, Bool.false_eq_true]
            refine ⟨i2.inv, i2.clean, by rw [i2.data]; exact h.data, by rw [i2.pos, ← h.pos], ?_, ?_,
              h.marks.ext i2.ext⟩
            · rw [i3, hef]
            · intro h'; rw [i3, hef] at h'; simp at h'
        · have hno : ¬ n ≤ s.unread.length := by omega
          refine ⟨s', ms, ?_, ?_⟩
          · simp only [implStep, Stream.read, hfast, hef, ↓reduceIte, i4, Option.map_some, step,
              h.eof, hlen, hno, hrest, List.nil_append, Bool.false_eq_true]
          · simp only [step, h.eof, hef, hlen, hno, ↓reduceIte, Bool.false_eq_true]
            have hp : s'.pos = s.data.length := by
              rw [i2.pos, ← h.inv.unread_eq, List.length_drop]
              have := h.inv.pos_le; omega
            refine ⟨i2.inv, i2.clean, by rw [i2.data]; exact h.data, ?_, i3.symm, ?_,
              h.marks.ext i2.ext⟩
            · rw [hp]; exact congrArg List.length h.data
            · intro _
              rw [← i2.inv.unread_eq, hp, i2.data, List.drop_length]
    · have hle : n ≤ s.avail.length := by omega
      obtain ⟨a1, a2, a3, a4⟩ := advance_same s h.inv n hle
      have hnu : n ≤ s.unread.length := by
        simp only [InS.unread, List.length_append]; omega
      by_cases he : s.eof = true
      · have hu0 := h.atEnd he
        have hn0 : n = 0 := by rw [hu0] at hnu; simpa using hnu
        subst hn0
        simp only [he] at a1 a2 a3
        refine ⟨_, ms, by simp only [implStep, Stream.read, hfast, ↓reduceIte, he, Option.map_some, step, h.eof, List.take_zero, Bool.not_true]; rfl, ?_⟩
        simp only [step, h.eof, he, ↓reduceIte]
        exact ⟨a1, h.clean, h.data, h.pos, h.eof.trans he, fun _ => hu0, h.marks⟩
      · have hef : s.eof = false := by simpa using he
        simp only [hef] at a1 a2 a3
        refine ⟨_, ms, by
          simp only [implStep, Stream.read, hfast, ↓reduceIte, hef, Option.map_some, step, h.eof,
            hlen, hnu, hrest, avail_prefix s n hle, Bool.not_false, Bool.false_eq_true]; rfl, ?_⟩
        simp only [step, h.eof, hef, hlen, hnu, ↓reduceIte, Bool.false_eq_true]
        refine ⟨a1, h.clean, h.data, by rw [a3, ← h.pos], rfl, ?_, h.marks⟩
        intro h'
        simp only [Bool.false_eq_true] at h'
  | skip n =>
    by_cases hfast : n > s.avail.length
    · by_cases he : s.eof = true
      · refine ⟨s, ms, ?_, ?_⟩
        · simp only [implStep, skip, hfast, he, ↓reduceIte, Option.map_some, step, h.eof]
        · simp only [step, h.eof, he, ↓reduceIte]
          exact h
      · have hef : s.eof = false := by simpa using he
        obtain ⟨s', hs'⟩ := skipLoop_spec n n s (Nat.le_refl _) h.inv h.clean
        rcases hs' with ⟨i1, i2, i3, i4⟩ | ⟨i1, i2, i3, i4⟩
        · refine ⟨s', ms, ?_, ?_⟩
          · simp only [implStep, skip, hfast, hef, ↓reduceIte, i4, Option.map_some, step,
              h.eof, hlen, i1, Bool.false_eq_true]
          · simp only [step, h.eof, hef, hlen, i1, ↓reduceIte, Bool.false_eq_true]
            refine ⟨i2.inv, i2.clean, by rw [i2.data]; exact h.data, by rw [i2.pos, ← h.pos], ?_, ?_,
              h.marks.ext i2.ext⟩
            · rw [i3, hef]
            · intro h'; rw [i3, hef] at h'; simp at h'
        · have hno : ¬ n ≤ s.unread.length := by omega
          refine ⟨s', ms, ?_, ?_⟩
          · simp only [implStep, skip, hfast, hef, ↓reduceIte, i4, Option.map_some, step,
              h.eof, hlen, hno, Bool.false_eq_true]
          · simp only [step, h.eof, hef, hlen, hno, ↓reduceIte, Bool.false_eq_true]
            have hp : s'.pos = s.data.length := by
              rw [i2.pos, ← h.inv.unread_eq, List.length_drop]
              have := h.inv.pos_le; omega
            refine ⟨i2.inv, i2.clean, by rw [i2.data]; exact h.data, ?_, i3.symm, ?_,
              h.marks.ext i2.ext⟩
            · rw [hp]; exact congrArg List.length h.data
            · intro _
              rw [← i2.inv.unread_eq, hp, i2.data, List.drop_length]
    · have hle : n ≤ s.avail.length := by omega
      obtain ⟨a1, a2, a3, a4⟩ := advance_same s h.inv n hle
      have hnu : n ≤ s.unread.length := by
        simp only [InS.unread, List.length_append]; omega
      by_cases he : s.eof = true
      · have hu0 := h.atEnd he
        have hn0 : n = 0 := by rw [hu0] at hnu; simpa using hnu
        subst hn0
        simp only [he] at a1 a2 a3
        refine ⟨_, ms, by simp only [implStep, skip, hfast, ↓reduceIte, he, Option.map_some, step, h.eof, Bool.not_true]; rfl, ?_⟩
        simp only [step, h.eof, he, ↓reduceIte]
        exact ⟨a1, h.clean, h.data, h.pos, h.eof.trans he, fun _ => hu0, h.marks⟩
      · have hef : s.eof = false := by simpa using he
        simp only [hef] at a1 a2 a3
        refine ⟨_, ms, by
          simp only [implStep, skip, hfast, ↓reduceIte, hef, Option.map_some, step, h.eof,
            hlen, hnu, Bool.not_false, Bool.false_eq_true]; rfl, ?_⟩
        simp only [step, h.eof, hef, hlen, hnu, ↓reduceIte, Bool.false_eq_true]
        refine ⟨a1, h.clean, h.data, by rw [a3, ← h.pos], rfl, ?_, h.marks⟩
        intro h'
        simp only [Bool.false_eq_true] at h'
  | mark =>
    refine ⟨s, ms ++ [Stream.mark s], rfl, ?_⟩
    simp only [step]
    exact ⟨h.inv, h.clean, h.data, h.pos, h.eof, h.atEnd,
      forall₂_append_one h.marks (by rw [h.pos]; exact chain_mark s h.inv)⟩
  | rewind i =>
    rcases forall₂_getElem? h.marks i with ⟨h1, h2⟩ | ⟨m, p, h1, h2, b, hb1, hb2, hb3⟩
    · refine ⟨s, ms, ?_, ?_⟩
      · simp only [implStep, h1, step, h2]
      · simp only [step, h2]; exact h
    · have hidx : m.idx < s.chain.length := by
        rw [List.getElem?_eq_some_iff] at hb1; exact hb1.1
      have hdrop : s.chain.drop m.idx = b :: s.chain.drop (m.idx + 1) := by
        rw [List.drop_eq_getElem_cons hidx]
        congr 1
        rw [List.getElem?_eq_some_iff] at hb1
        exact hb1.2
      have hchain : s.chain.take m.idx ++ b :: s.chain.drop (m.idx + 1) = s.chain := by
        rw [← hdrop, List.take_append_drop]
      refine ⟨_, ms, by
        simp only [implStep, h1, Stream.rewind, hdrop, hb2, ↓reduceIte, Option.map_some, step, h2]
        rfl, ?_⟩
      simp only [step, h2]
      refine ⟨⟨?_, hb2, h.inv.size⟩, h.clean, ?_, hb3, rfl, ?_, ?_⟩
      · simp only [InS.chain] at hchain ⊢
        rw [hchain]; exact h.inv.off
      · rw [h.data]
        simp only [InS.data, InS.chain] at hchain ⊢
        rw [hchain]
      · intro h'; simp at h'
      · have e : (⟨s.src, s.blockSize, s.chain.take m.idx, b, s.chain.drop (m.idx + 1), m.ofs, false⟩
          : InS).chain = s.chain := hchain
        have := h.marks
        rw [← e] at this
        exact this

theorem implRun_sim (ops : List InOp) (s : InS) (ms : List Mark) (t : InState) (h : Sim s ms t) :
    ∃ s' ms', implRun s ms ops = some ((run t ops).1, s', ms') ∧ Sim s' ms' (run t ops).2 := by
  induction ops generalizing s ms t with
  | nil => exact ⟨s, ms, rfl, h⟩
  | cons op ops ih =>
    obtain ⟨s1, ms1, e1, e2⟩ := implStep_sim s ms t h op
    obtain ⟨s2, ms2, f1, f2⟩ := ih s1 ms1 _ e2
    exact ⟨s2, ms2, by simp only [implRun, e1, f1, run], f2⟩

theorem sim_init (blockSize : Nat) (src : Source) (hb : 0 < blockSize) (hc : Clean src) :
    Sim (InS.init blockSize src) [] ⟨src.flatten, 0, false, []⟩ := by
  refine ⟨⟨?_, by simp [InS.init], hb⟩, hc, ?_, rfl, rfl, ?_, All2.nil⟩
  · simp [InS.init, InS.chain, Off]
  · simp [InS.init, InS.data, InS.chain]
  · intro h; simp [InS.init] at h

/-- **C25.** For every block size, every pipe content and every way the pipe cuts it into reads,
every sequence of byte reads, peeks, block reads, skips, remembered positions and rewinds runs
without assertion failures and gives exactly the results of reading a plain byte string at a
position: in particular nothing is lost, duplicated or invented, and the end is reported exactly
when the data is exhausted. -/
theorem C25_refines (blockSize : Nat) (src : Source) (hb : 0 < blockSize) (hc : Clean src)
    (ops : List InOp) :
    ∃ s ms, implRun (InS.init blockSize src) [] ops =
      some ((run ⟨src.flatten, 0, false, []⟩ ops).1, s, ms) := by
  obtain ⟨s, ms, e, _⟩ := implRun_sim ops _ _ _ (sim_init blockSize src hb hc)
  exact ⟨s, ms, e⟩

example : (run ⟨[1, 2, 3, 4, 5], 0, false, []⟩
    [.readByte, .mark, .read 3, .rewind 0, .skip 2, .peek, .read 4]).1 =
    [.byte 1, .done, .bytes true [2, 3, 4], .done, .flag true, .peeked (some 4),
      .bytes false [4, 5, 0, 0]] := by decide
example : Clean [[1, 2], [3, 4, 5]] := by unfold Clean; decide

theorem drain_spec (fuel : Nat) (s : InS) (h : Inv s) (hc : Clean s.src)
    (hf : s.unread.length < fuel) :
    ∃ s', drain fuel s = some s' ∧ Inv s' ∧ s'.data = s.data ∧ s'.src = [] ∧
      Ext s.chain s'.chain := by
  induction fuel generalizing s with
  | zero => omega
  | succ fuel ih =>
    obtain ⟨k, s1, e1, e2, e3, e4⟩ := tryMake_one s h hc
    have hun := Same.unread h e2
    rw [drain, e1]
    dsimp only
    rcases e4 with ⟨hk, hav, heof⟩ | ⟨hk, hav, hnx, hsrc, heof⟩
    · rw [if_neg (by omega)]
      have hcur : s1.blk.used.length = s1.cur + s1.avail.length := by
        have := e2.inv.cur
        simp only [InS.avail, List.length_drop]; omega
      rw [hcur]
      obtain ⟨a1, a2, a3, a4⟩ := advance_same s1 e2.inv s1.avail.length (Nat.le_refl _)
      have hpos : 0 < s1.avail.length := List.length_pos_iff.mpr hav
      have hun2 : ({ s1 with cur := s1.cur + s1.avail.length } : InS).unread.length < fuel := by
        rw [← a1.unread_eq, a2, a3, ← List.drop_drop, e2.inv.unread_eq, hun, List.length_drop]
        have h1 : s1.avail.length ≤ s.unread.length := by
          rw [← hun]; simp only [InS.unread, List.length_append]; omega
        omega
      obtain ⟨s', f1, f2, f3, f4, f5⟩ := ih _ a1 e3 hun2
      exact ⟨s', f1, f2, by rw [f3, a2, e2.data], f4, e2.ext.trans f5⟩
    · rw [if_pos hk]
      exact ⟨s1, rfl, e2.inv, e2.data, hsrc, e2.ext⟩

theorem toStringAll_spec (bs : List Block) (o o' : Nat) (b : Block)
    (h : Off o' (b :: bs)) (ho : o ≤ b.used.length) :
    toStringAll o (b :: bs) = some ((bytesOf (b :: bs)).drop o) := by
  induction bs generalizing o o' b with
  | nil => simp [toStringAll]
  | cons c cs ih =>
    have h1 : nextOfs b c = some 0 := by
      unfold nextOfs
      have := h.1; have := h.2.2.1
      rw [if_pos (by omega)]
      have e : b.used.length - (c.fileOffset - b.fileOffset) = 0 := by omega
      simp [e]
    rw [toStringAll, h1]
    simp only [ih 0 _ c h.2.2 (Nat.zero_le _)]
    simp only [List.drop_zero, bytesOf_cons]
    rw [List.drop_append_of_le_length ho]

/-- **C25**, read to the end: after any sequence of requests, reading the remaining contents returns
exactly the bytes not yet consumed (below 4 GiB). -/
theorem C25_read_remaining (blockSize : Nat) (src : Source) (hb : 0 < blockSize) (hc : Clean src)
    (hsize : src.flatten.length < 2 ^ 32) (ops : List InOp) :
    ∃ s ms fuel, implRun (InS.init blockSize src) [] ops =
        some ((run ⟨src.flatten, 0, false, []⟩ ops).1, s, ms) ∧
      readRemaining fuel s =
        some (src.flatten.drop (run ⟨src.flatten, 0, false, []⟩ ops).2.pos) := by
  obtain ⟨s, ms, e, hsim⟩ := implRun_sim ops _ _ _ (sim_init blockSize src hb hc)
  have hdata : ∀ ops t, (run t ops).2.data = t.data := by
    intro ops
    induction ops with
    | nil => intro t; rfl
    | cons op ops ih =>
      intro t
      simp only [run]
      rw [ih]
      cases op <;> simp only [step] <;> (repeat' split) <;> rfl
  refine ⟨s, ms, s.unread.length + 1, e, ?_⟩
  obtain ⟨s', d1, d2, d3, d4, d5⟩ := drain_spec (s.unread.length + 1) s hsim.inv hsim.clean (by omega)
  unfold readRemaining
  rw [d1]
  dsimp only
  obtain ⟨b, hb1, hb2, hb3⟩ := (chain_mark s hsim.inv).ext d5
  have hidx : s.prev.length < s'.chain.length := by
    rw [List.getElem?_eq_some_iff] at hb1; exact hb1.1
  have hdrop : s'.chain.drop s.prev.length = b :: s'.chain.drop (s.prev.length + 1) := by
    rw [List.drop_eq_getElem_cons hidx]
    congr 1
    rw [List.getElem?_eq_some_iff] at hb1
    exact hb1.2
  have hsplit : s'.chain = s'.chain.take s.prev.length ++ b :: s'.chain.drop (s.prev.length + 1) := by
    rw [← hdrop, List.take_append_drop]
  have hoff := d2.off
  rw [hsplit, off_append] at hoff
  rw [hdrop, toStringAll_spec _ s.cur _ b hoff.2 hb2]
  dsimp only
  have hd : src.flatten = bytesOf s'.chain := by
    have h1 : (run ⟨src.flatten, 0, false, []⟩ ops).2.data = src.flatten := hdata ops _
    rw [← h1, hsim.data, ← d3, InS.data, d4]
    simp
  have hbo : b.fileOffset = (bytesOf (s'.chain.take s.prev.length)).length := by
    have := hoff.2.1; omega
  have hres : (bytesOf (b :: s'.chain.drop (s.prev.length + 1))).drop s.cur =
      src.flatten.drop (run ⟨src.flatten, 0, false, []⟩ ops).2.pos := by
    rw [hsim.pos, hb3, hd]
    conv => rhs; rw [hsplit]
    rw [bytesOf_append, hbo]
    show _ = List.drop (_ + s.cur) _
    generalize bytesOf (s'.chain.take s.prev.length) = p
    rw [List.drop_append, List.drop_eq_nil_of_le (as := p) (by omega), List.nil_append]
    congr 1
    omega
  rw [hres]
  rw [if_pos]
  rw [List.length_drop]; omega

example : (run ⟨[1, 2, 3, 4, 5], 0, false, []⟩ [.readByte, .read 2]).2.pos = 3 := by decide

/-- **C25**, requests for several contiguous bytes, guarded: if the current block has room for them,
the request neither loses data nor moves the position, and it makes them available unless the data
is exhausted.  Missing: requests that do not fit in the current block, which lose data
(`C25_wide_request_loses_data`). -/
theorem C25_wide_request_partial (n : Nat) (s : InS) (h : Inv s) (hc : Clean s.src)
    (hnext : s.next = []) (hroom : n ≤ s.blk.size - s.cur) :
    ∃ k s', tryMake n s = some (k, s') ∧ s'.unread = s.unread ∧ s'.pos = s.pos ∧
      k ≤ s'.avail.length ∧ (n ≤ k ∨ (k = s.unread.length ∧ s'.eof = true)) := by
  unfold tryMake
  by_cases h1 : s.avail.length < n
  · rw [if_pos h1]
    have hs : seekBlock n s = some s := by
      rw [seekBlock.eq_def]
      simp only [InS.avail, List.length_drop] at h1
      rw [if_neg (by omega)]
      split
      · rename_i hh; rw [hnext] at hh; simp at hh
      · rw [if_neg (by omega)]
    rw [hs]
    obtain ⟨f1, f2, _, f3⟩ := fill_spec n s h hc hroom (Or.inr hnext)
    have hun := Same.unread h f1
    refine ⟨_, _, rfl, hun, f1.pos, Nat.le_refl _, ?_⟩
    rcases f3 with f3 | f3
    · exact Or.inl f3.1
    · refine Or.inr ⟨?_, f3.2.2.2⟩
      rw [← hun]
      simp [InS.unread, f3.2.1, f3.2.2.1]
  · rw [if_neg h1]
    exact ⟨n, s, rfl, rfl, rfl, by omega, Or.inl (Nat.le_refl _)⟩

example : ∃ s : InS, Inv s ∧ Clean s.src ∧ s.next = [] ∧ 2 ≤ s.blk.size - s.cur := by
  refine ⟨InS.init 128 [[1, 2, 3]], ?_, ?_, rfl, by decide⟩
  · exact (sim_init 128 [[1, 2, 3]] (by decide) (by unfold Clean; decide)).inv
  · unfold Clean; decide

/-- **C25** fails for requests of several contiguous bytes: when one unread byte is left at the end
of a full block, asking for two drops it.  Here a stream with block size 128 has consumed 127 of
the bytes in its first block, with 128 more to come. -/
theorem C25_wide_request_loses_data :
    ∃ s : InS, Inv s ∧ Clean s.src ∧ s.unread.length = 129 ∧
      ∃ k s', tryMake 2 s = some (k, s') ∧ s'.unread.length = 128 ∧ s'.pos = s.pos + 1 := by
  let s : InS := ⟨[List.replicate 128 7], 128, [], ⟨128, List.replicate 128 5, 0⟩, [], 127, false⟩
  have hlen : (List.replicate 128 (5 : Byte)).length = 128 := List.length_replicate
  refine ⟨s, ⟨?_, ?_, by decide⟩, ?_, ?_, ?_⟩
  · simp [s, InS.chain, Off]
  · simp [s]
  · intro c hc; simp only [s, List.mem_singleton] at hc; subst hc; simp
  · simp [s, InS.unread, InS.avail]
  · have h1 : s.avail.length = 1 := by simp [s, InS.avail]
    have h2 : seekBlock 2 s = some ⟨[List.replicate 128 7], 128, [⟨128, List.replicate 128 5, 0⟩],
        ⟨128, [], 128⟩, [], 0, false⟩ := by
      rw [seekBlock.eq_def]
      simp [s]
    have h3 : fill 2 ⟨[List.replicate 128 7], 128, [⟨128, List.replicate 128 5, 0⟩],
        ⟨128, [], 128⟩, [], 0, false⟩ = ⟨[], 128, [⟨128, List.replicate 128 5, 0⟩],
        ⟨128, List.replicate 128 7, 128⟩, [], 0, false⟩ := by
      rw [fill.eq_def]
      simp only [List.length_nil, Nat.sub_zero]
      rw [if_neg (by decide)]
      have hr : readSome 128 [List.replicate 128 (7 : Byte)] = (List.replicate 128 7, []) := by
        simp [readSome]
      simp only [hr]
      rw [dif_neg (by simp), fill.eq_def]
      simp
    unfold tryMake
    rw [if_pos (by omega), h2]
    dsimp only
    rw [h3]
    refine ⟨_, _, rfl, ?_, ?_⟩
    · simp [InS.unread, InS.avail]
    · simp [s, InS.pos]

/-! ## C52 -/

/-- **C52** fails: capturing the text between two positions of an input stream runs off the block
list (null dereference) whenever the end position lies in the last block and differs from the
start position – which is the situation after reading a line or token with `readString`. -/
theorem C52_capture_crashes (bs : List Block) (i o : Nat) (e : Mark)
    (hlast : e.idx + 1 = i + bs.length) (hne : ¬ (i = e.idx ∧ o = e.ofs))
    (hnz : i < e.idx → e.ofs ≠ 0) (hoff : ∃ o', Off o' bs) :
    toStringRange e i o bs = none := by
  induction bs generalizing i o with
  | nil => rfl
  | cons b bs ih =>
    rw [toStringRange, if_neg hne]
    cases bs with
    | nil => rfl
    | cons c cs =>
      simp only [List.length_cons] at hlast
      cases hn : nextOfs b c with
      | none => simp only [hn]
      | some o' =>
        have hofs : o' = 0 := by
          obtain ⟨q, hq⟩ := hoff
          have h1 := hq.1; have h2 := hq.2.2.1
          unfold nextOfs at hn
          rw [if_pos (by omega)] at hn
          dsimp only at hn
          split at hn
          · have := Option.some.inj hn; omega
          · simp at hn
        subst hofs
        have := ih (i + 1) 0 (by simp only [List.length_cons]; omega) (by
          rintro ⟨_, h2⟩; exact hnz (by omega) h2.symm) (fun h => hnz (by omega)) (by
          obtain ⟨q, hq⟩ := hoff; exact ⟨_, hq.2.2⟩)
        simp only [hn, this]

example : toStringRange ⟨0, 3⟩ 0 1 [⟨128, [97, 98, 99, 10], 0⟩] = none := by decide

/-- **C52**, guarded: if the end position is the very start of a later block, the captured text is
exactly the bytes in between.  Missing: every other non-empty capture, where the code crashes
(`C52_capture_crashes`). -/
theorem C52_capture_partial (mid : List Block) (b c : Block) (cs : List Block) (i o q : Nat)
    (hoff : Off q (b :: mid ++ c :: cs)) (ho : o ≤ b.used.length) :
    toStringRange ⟨i + mid.length + 1, 0⟩ i o (b :: mid ++ c :: cs) =
      some ((bytesOf (b :: mid)).drop o) := by
  induction mid generalizing b i o q with
  | nil =>
    have h1 := hoff.1; have h2 := hoff.2.2.1
    have hn : nextOfs b c = some 0 := by
      unfold nextOfs
      rw [if_pos (by omega)]
      have e : b.used.length - (c.fileOffset - b.fileOffset) = 0 := by omega
      simp [e]
    rw [List.cons_append, List.nil_append, toStringRange]
    rw [if_neg (by rintro ⟨h, _⟩; simp at h)]
    simp only [hn]
    rw [toStringRange.eq_def]
    simp
  | cons m mid ih =>
    have h1 := hoff.1
    have hoff2 : Off (q + b.used.length) (m :: mid ++ c :: cs) := hoff.2.2
    have h2 := hoff2.1
    have hn : nextOfs b m = some 0 := by
      unfold nextOfs
      rw [if_pos (by omega)]
      have e : b.used.length - (m.fileOffset - b.fileOffset) = 0 := by omega
      simp [e]
    have := ih m (i + 1) 0 _ hoff2 (Nat.zero_le _)
    rw [List.cons_append, List.cons_append, toStringRange]
    rw [if_neg (by rintro ⟨h, _⟩; simp only [List.length_cons] at h; omega)]
    simp only [hn]
    have e : (⟨i + (m :: mid).length + 1, 0⟩ : Mark) = ⟨i + 1 + mid.length + 1, 0⟩ := by
      simp only [List.length_cons, Mark.mk.injEq, and_true]; omega
    rw [List.cons_append] at this
    rw [e, this]
    rw [if_neg (by omega)]
    simp only [List.drop_zero, bytesOf_cons]
    rw [List.drop_append_of_le_length ho]

example : toStringRange ⟨1, 0⟩ 0 1 [⟨128, [97, 98, 99], 0⟩, ⟨128, [100], 3⟩] = some [98, 99] := by
  decide

end Verif.Stream

import Verif.Stream.Props
/-!
# C05, C26: output streams and the newline filter
-/
namespace Verif.Stream
open Verif Spec

/-! ## C26 -/

/-- One request against the model. -/
def outStep (s : OutS) : OutOp → Option OutS
  | .writeByte b => (writeByte b s).map (·.2)
  | .write bs => (Stream.write bs s).map (·.2)
  | .reserve n bs =>
    match outMake n s with
    | none => none
    | some s1 => put bs s1
  | .flush => Stream.flush s

/-- A sequence of requests against the model. -/
def outRun (s : OutS) : List OutOp → Option OutS
  | [] => some s
  | op :: ops =>
    match outStep s op with
    | none => none
    | some s' => outRun s' ops

/-- Bytes that have been handed to the pipe, or kept in earlier blocks, and bytes waiting. -/
structure OInv (w : List Byte) (s : OutS) : Prop where
  notView : s.kind ≠ .view
  bsz : 0 < s.blockSize
  len : s.buf.length ≤ s.limit
  lim : s.limit = s.size
  fl : s.flushed ≤ s.buf.length
  mem : s.kind = .mem → s.blocks.flatten ++ s.buf = w ∧ s.eof = false
  pipeOk : s.kind = .pipe → s.eof = false → s.sink.got ++ s.buf.drop s.flushed = w
  pipePre : s.kind = .pipe → s.sink.got <+: w
  failed : s.sink.failed = s.eof
  quiet : s.sink.afterFailure = 0

theorem sink_write (k : Sink) (bs : List Byte) (h : k.failed = false) (hq : k.afterFailure = 0) :
    ((k.write bs).1 = true ∧ (k.write bs).2.got = k.got ++ bs ∧ (k.write bs).2.failed = false ∨
     (k.write bs).1 = false ∧ (k.write bs).2.got <+: k.got ++ bs ∧ (k.write bs).2.failed = true) ∧
    (k.write bs).2.afterFailure = 0 := by
  unfold Sink.write
  rw [h]
  cases hs : k.script with
  | nil => simp [hq, h]
  | cons p rest =>
    cases p with
    | ok => simp [hq, h]
    | fails n =>
      refine ⟨Or.inr ⟨rfl, ?_, rfl⟩, by simp [hq]⟩
      exact (List.prefix_append_right_inj _).mpr (List.take_prefix _ _)

theorem flushInternal_spec (w : List Byte) (s : OutS) (h : OInv w s) :
    ∃ s', flushInternal s = some (!s'.eof, s') ∧ OInv w s' ∧ s'.buf = s.buf ∧
      s'.flushed = s.buf.length ∧ s'.limit = s.limit ∧ s'.kind = s.kind ∧
      s'.blockSize = s.blockSize ∧ (s.eof = true → s'.eof = true) := by
  have h1 := h.len; have h2 := h.lim; have h3 := h.fl
  unfold flushInternal
  rw [if_neg h.notView, if_neg (by simp [h2]), if_neg (by omega), if_neg (by omega)]
  by_cases hgt : s.buf.length > s.flushed
  · rw [if_pos hgt]
    by_cases hp : s.kind = .pipe ∧ s.eof = false
    · rw [if_pos hp]
      obtain ⟨hw, hq⟩ := sink_write s.sink (s.buf.drop s.flushed) (by rw [h.failed, hp.2]) h.quiet
      have hw0 := h.pipeOk hp.1 hp.2
      rw [hw0] at hw
      refine ⟨_, rfl, ⟨h.notView, h.bsz, h1, h2, Nat.le_refl _, ?_, ?_, ?_, ?_, hq⟩, rfl, rfl, rfl,
        rfl, rfl, ?_⟩
      · intro hm; exact absurd (hp.1.symm.trans hm) (by decide)
      · intro _ he
        dsimp only at he ⊢
        rcases hw with hw | hw
        · rw [List.drop_length, List.append_nil]; exact hw.2.1
        · rw [hw.1] at he; simp at he
      · intro _
        rcases hw with hw | hw
        · dsimp only; rw [hw.2.1]; exact List.prefix_refl _
        · exact hw.2.1
      · dsimp only
        rcases hw with hw | hw
        · rw [hw.1, hw.2.2]; rfl
        · rw [hw.1, hw.2.2]; rfl
      · intro he; rw [hp.2] at he; simp at he
    · rw [if_neg hp]
      refine ⟨{ s with flushed := s.buf.length }, rfl, ⟨h.notView, h.bsz, h1, h2, Nat.le_refl _, h.mem, ?_, h.pipePre, h.failed, h.quiet⟩,
        rfl, rfl, rfl, rfl, rfl, fun he => he⟩
      intro hk he
      exact absurd ⟨hk, he⟩ hp
  · rw [if_neg hgt]
    have : s.flushed = s.buf.length := by omega
    exact ⟨s, rfl, h, rfl, this, rfl, rfl, rfl, fun he => he⟩

theorem newBlock_inv (w : List Byte) (n : Nat) (s : OutS) (h : OInv w s)
    (hf : s.flushed = s.buf.length) : OInv w (newBlock n s) := by
  refine ⟨h.notView, h.bsz, Nat.zero_le _, rfl, Nat.le_refl _, ?_, ?_, h.pipePre, h.failed, h.quiet⟩
  · intro hm
    have hm' : s.kind = .mem := hm
    have := h.mem hm'
    simp only [newBlock, hm', ↓reduceIte]
    refine ⟨?_, this.2⟩
    rw [← this.1]
    simp
  · intro hk he
    have := h.pipeOk hk he
    rw [hf, List.drop_length, List.append_nil] at this
    simpa [newBlock] using this

/-- Making room: the bytes do not change, and either there is room or the stream is at its end. -/
theorem outTryMake_one (w : List Byte) (s : OutS) (h : OInv w s) :
    ∃ k s', outTryMake 1 s = some (k, s') ∧ OInv w s' ∧ s'.kind = s.kind ∧
      s'.blockSize = s.blockSize ∧ (s.eof = true → s'.eof = true) ∧
      ((0 < k ∧ s'.buf.length < s'.limit ∧ s'.eof = s.eof ∧
          (s' = s ∨ (s'.buf = [] ∧ s'.blockSize ≤ s'.limit))) ∨
        (k = 0 ∧ s'.eof = true ∧ s'.buf.length = s'.limit ∧ s'.buf = s.buf)) := by
  have hlen := h.len
  unfold outTryMake
  by_cases h1 : s.limit - s.buf.length < 1
  · rw [if_pos h1, if_neg h.notView]
    by_cases he : s.eof = true
    · rw [if_pos he]
      exact ⟨0, s, rfl, h, rfl, rfl, fun x => x, Or.inr ⟨rfl, he, by omega, rfl⟩⟩
    · rw [if_neg he]
      obtain ⟨s1, e1, e2, e3, e4, e5, e6, e7, e8⟩ := flushInternal_spec w s h
      rw [e1]
      cases hf : s1.eof with
      | true =>
        simp only [Bool.not_true]
        have hl : s1.buf.length = s1.limit := by rw [e3, e5]; omega
        refine ⟨0, { s1 with limit := s1.buf.length }, rfl, ?_, e6, e7, fun _ => hf,
          Or.inr ⟨rfl, hf, rfl, e3⟩⟩
        rw [hl]
        exact e2
      | false =>
        simp only [Bool.not_false]
        have hef : s.eof = false := by simpa using he
        have hb := h.bsz
        refine ⟨_, _, rfl, newBlock_inv w 1 s1 e2 (by rw [e4, e3]), e6, e7, ?_, Or.inl ⟨?_, ?_, ?_, Or.inr ⟨rfl, ?_⟩⟩⟩
        · intro h'; exact absurd h' he
        · simp only [newBlock]; omega
        · simp only [newBlock, List.length_nil]; omega
        · rw [hef]; exact hf
        · simp only [newBlock]; omega
  · rw [if_neg h1]
    exact ⟨1, s, rfl, h, rfl, rfl, fun x => x, Or.inl ⟨by omega, by omega, rfl, Or.inl rfl⟩⟩

/-- Storing bytes that fit. -/
theorem put_spec (w bs : List Byte) (s : OutS) (h : OInv w s)
    (hfit : s.buf.length + bs.length ≤ s.limit) :
    put bs s = some { s with buf := s.buf ++ bs } ∧ OInv (w ++ bs) { s with buf := s.buf ++ bs } := by
  refine ⟨by unfold put; rw [if_pos hfit], ⟨h.notView, h.bsz, ?_, h.lim, ?_, ?_, ?_, ?_, h.failed,
    h.quiet⟩⟩
  · simpa using hfit
  · have := h.fl; simp only [List.length_append]; omega
  · intro hm
    have := h.mem hm
    refine ⟨?_, this.2⟩
    dsimp only
    rw [← this.1, List.append_assoc]
  · intro hk he
    dsimp only at he ⊢
    rw [← h.pipeOk hk he, List.drop_append_of_le_length h.fl, List.append_assoc]
  · intro hk
    exact (h.pipePre hk).trans (List.prefix_append _ _)

theorem OInv.weaken {w : List Byte} {s : OutS} (h : OInv w s) (he : s.eof = true) (bs : List Byte) :
    OInv (w ++ bs) s := by
  refine ⟨h.notView, h.bsz, h.len, h.lim, h.fl, ?_, ?_, ?_, h.failed, h.quiet⟩
  · intro hm; have := (h.mem hm).2; rw [he] at this; simp at this
  · intro _ hf; rw [he] at hf; simp at hf
  · intro hk; exact (h.pipePre hk).trans (List.prefix_append _ _)

theorem writeLoop_spec (fuel : Nat) (src w : List Byte) (s : OutS) (h : OInv w s)
    (hf : src.length ≤ fuel) :
    ∃ ok s', writeLoop fuel src s = some (ok, s') ∧ OInv (w ++ src) s' ∧ s'.kind = s.kind ∧
      (s.eof = true → s'.eof = true) ∧ (ok = true → s'.eof = s.eof) ∧
      (ok = false → s'.eof = true) := by
  induction fuel generalizing src w s with
  | zero =>
    have : src = [] := List.length_eq_zero_iff.mp (by omega)
    subst this
    exact ⟨true, s, by simp [writeLoop], by rw [List.append_nil]; exact h, rfl, fun x => x,
      fun _ => rfl, by simp⟩
  | succ fuel ih =>
    cases src with
    | nil =>
      exact ⟨true, s, by simp [writeLoop], by rw [List.append_nil]; exact h, rfl, fun x => x,
        fun _ => rfl, by simp⟩
    | cons b bs =>
      obtain ⟨k, s1, e1, e2, e3, _, e4, e5⟩ := outTryMake_one w s h
      simp only [writeLoop, e1]
      rcases e5 with ⟨hk, hroom, heof, _⟩ | ⟨hk, heof, _⟩
      · rw [if_neg (by omega)]
        generalize hm : min (s1.limit - s1.buf.length) (b :: bs).length = m
        have hlen : (b :: bs).length = bs.length + 1 := rfl
        have hm1 : 1 ≤ m := by omega
        have hm2 : m ≤ (b :: bs).length := by omega
        have hfit : s1.buf.length + ((b :: bs).take m).length ≤ s1.limit := by
          rw [List.length_take]; omega
        obtain ⟨p1, p2⟩ := put_spec w ((b :: bs).take m) s1 e2 hfit
        rw [p1]
        dsimp only
        obtain ⟨ok, s', i1, i2, i3, i4, i5, i6⟩ := ih ((b :: bs).drop m) _ _ p2 (by
          rw [List.length_drop]; omega)
        refine ⟨ok, s', i1, ?_, by rw [i3]; exact e3, fun he => i4 (e4 he), ?_, i6⟩
        · rw [List.append_assoc, List.take_append_drop] at i2
          exact i2
        · intro ho; rw [i5 ho]; exact heof
      · rw [if_pos hk]
        exact ⟨false, s1, rfl, e2.weaken heof _, e3, e4, by simp, fun _ => heof⟩

theorem write_spec (src w : List Byte) (s : OutS) (h : OInv w s) (hl : src.length < 2 ^ 31) :
    ∃ ok s', Stream.write src s = some (ok, s') ∧ OInv (w ++ src) s' ∧ s'.kind = s.kind ∧
      ok = !s'.eof ∧ (s.eof = true → s'.eof = true) := by
  have hlen := h.len
  unfold Stream.write
  dsimp only
  rw [if_pos hl]
  by_cases h1 : (src.length : Int) > ((s.limit - s.buf.length : Nat) : Int)
  · rw [if_pos h1]
    by_cases he : s.eof = true
    · rw [if_pos he]
      exact ⟨false, s, rfl, h.weaken he _, rfl, by simp [he], fun x => x⟩
    · rw [if_neg he]
      obtain ⟨ok, s', i1, i2, i3, i4, i5, i6⟩ := writeLoop_spec src.length src w s h (Nat.le_refl _)
      refine ⟨ok, s', i1, i2, i3, ?_, i4⟩
      cases ok with
      | true =>
        have hef : s.eof = false := by simpa using he
        rw [i5 rfl, hef]; rfl
      | false => rw [i6 rfl]; rfl
  · rw [if_neg h1]
    obtain ⟨p1, p2⟩ := put_spec w src s h (by omega)
    rw [p1]
    exact ⟨_, _, rfl, p2, rfl, rfl, fun x => x⟩

theorem outStep_spec (w : List Byte) (s : OutS) (h : OInv w s) (op : OutOp) (hl : op.Legal) :
    ∃ s', outStep s op = some s' ∧ OInv (w ++ op.bytes) s' ∧ s'.kind = s.kind ∧
      (s.eof = true → s'.eof = true) := by
  cases op with
  | writeByte b =>
    obtain ⟨k, s1, e1, e2, e3, _, e4, e5⟩ := outTryMake_one w s h
    simp only [outStep, writeByte, e1, OutOp.bytes]
    rcases e5 with ⟨hk, hroom, heof, _⟩ | ⟨hk, heof, _⟩
    · rw [if_neg (by omega)]
      obtain ⟨p1, p2⟩ := put_spec w [b] s1 e2 (by simp only [List.length_cons, List.length_nil]; omega)
      rw [p1]
      exact ⟨_, rfl, p2, e3, e4⟩
    · rw [if_pos hk]
      exact ⟨_, rfl, e2.weaken heof _, e3, e4⟩
  | write bs =>
    obtain ⟨ok, s', i1, i2, i3, _, i5⟩ := write_spec bs w s h hl
    exact ⟨s', by simp only [outStep, i1, Option.map_some], i2, i3, i5⟩
  | reserve n bs =>
    have hl' : bs.length ≤ n := hl
    simp only [outStep, outMake, OutOp.bytes]
    by_cases h1 : s.limit - s.buf.length < n
    · rw [if_pos h1, if_neg h.notView]
      obtain ⟨s1, e1, e2, e3, e4, e5, e6, e7, e8⟩ := flushInternal_spec w s h
      rw [e1]
      have hn := newBlock_inv w n s1 e2 (by rw [e4, e3])
      obtain ⟨p1, p2⟩ := put_spec w bs _ hn (by simp only [newBlock, List.length_nil]; omega)
      exact ⟨_, p1, p2, e6, e8⟩
    · rw [if_neg h1]
      have hlen := h.len
      obtain ⟨p1, p2⟩ := put_spec w bs s h (by omega)
      exact ⟨_, p1, p2, rfl, fun x => x⟩
  | flush =>
    obtain ⟨s1, e1, e2, e3, e4, e5, e6, e7, e8⟩ := flushInternal_spec w s h
    simp only [outStep, Stream.flush, e1, OutOp.bytes, List.append_nil]
    exact ⟨s1, rfl, e2, e6, e8⟩

theorem outRun_spec (ops : List OutOp) (w : List Byte) (s : OutS) (h : OInv w s)
    (hl : ∀ op ∈ ops, op.Legal) :
    ∃ s', outRun s ops = some s' ∧ OInv (w ++ written ops) s' ∧ s'.kind = s.kind ∧
      (s.eof = true → s'.eof = true) := by
  induction ops generalizing w s with
  | nil => exact ⟨s, rfl, by simpa [written] using h, rfl, fun x => x⟩
  | cons op ops ih =>
    obtain ⟨s1, e1, e2, e3, e4⟩ := outStep_spec w s h op (hl op (by simp))
    obtain ⟨s2, f1, f2, f3, f4⟩ := ih _ s1 e2 (fun o ho => hl o (by simp [ho]))
    refine ⟨s2, by simp only [outRun, e1, f1], ?_, f3.trans e3, fun he => f4 (e4 he)⟩
    have : w ++ written (op :: ops) = w ++ op.bytes ++ written ops := by
      simp [written]
    rw [this]; exact f2

theorem oinv_init (kind : OutKind) (hk : kind ≠ .view) (bsz : Nat) (hb : 0 < bsz)
    (script : List PipeWrite) : OInv [] (OutS.init kind bsz script) := by
  refine ⟨hk, hb, Nat.zero_le _, rfl, Nat.le_refl _, ?_, ?_, ?_, rfl, rfl⟩ <;> simp [OutS.init]

/-- **C26**, pipes.  For every block size, every sequence of requests and every way the pipe answers
(including failing after taking part of a write): no assertion fails; after a final flush the pipe
has received exactly everything written unless it reported a failure; in any case it has received a
prefix of it, and it is not called again after a failure; the stream is at end of file exactly if
the pipe reported a failure. -/
theorem C26_pipe (bsz : Nat) (hb : 0 < bsz) (script : List PipeWrite) (ops : List OutOp)
    (hl : ∀ op ∈ ops, op.Legal) :
    ∃ s, outRun (OutS.init .pipe bsz script) (ops ++ [.flush]) = some s ∧
      (s.sink.failed = false → s.sink.got = written ops) ∧
      s.sink.got <+: written ops ∧ s.sink.afterFailure = 0 ∧ s.eof = s.sink.failed := by
  obtain ⟨s1, e1, e2, e3, _⟩ := outRun_spec ops [] _ (oinv_init .pipe (by decide) bsz hb script) hl
  obtain ⟨s2, f1, f2, f3, f4, f5, f6, f7, f8⟩ := flushInternal_spec _ s1 e2
  have hrun : ∀ (ops : List OutOp) (s s1 : OutS), outRun s ops = some s1 →
      outRun s (ops ++ [.flush]) = (match outStep s1 .flush with | none => none | some x => some x) := by
    intro ops
    induction ops with
    | nil =>
      intro s s1 h
      simp only [outRun, Option.some.injEq] at h
      subst h
      simp only [List.nil_append, outRun]
    | cons op ops ih =>
      intro s s1 h
      simp only [outRun, List.cons_append] at h ⊢
      cases hs : outStep s op with
      | none => rw [hs] at h; simp at h
      | some s' =>
        rw [hs] at h
        exact ih s' s1 h
  have hk : s2.kind = .pipe := f6.trans e3
  refine ⟨s2, ?_, ?_, ?_, f2.quiet, f2.failed.symm⟩
  · rw [hrun ops _ _ e1]
    simp only [outStep, Stream.flush, f1]
  · intro hfail
    have := f2.pipeOk hk (by rw [← f2.failed]; exact hfail)
    rw [f3] at this
    rw [f4, List.drop_length, List.append_nil, List.nil_append] at this
    exact this
  · simpa using f2.pipePre hk

example : ∃ s, outRun (OutS.init .pipe 4 []) [.write [1, 2, 3], .writeByte 4, .reserve 3 [5, 6], .flush]
    = some s ∧ s.sink.got = [1, 2, 3, 4, 5, 6] := ⟨_, rfl, by decide⟩

/-- **C26**, results: a write reports success exactly if the pipe has not failed. -/
theorem C26_result (w : List Byte) (s : OutS) (h : OInv w s) (src : List Byte)
    (hl : src.length < 2 ^ 31) :
    ∃ ok s', Stream.write src s = some (ok, s') ∧ (ok = true ↔ s'.sink.failed = false) := by
  obtain ⟨ok, s', i1, i2, _, i4, _⟩ := write_spec src w s h hl
  refine ⟨ok, s', i1, ?_⟩
  rw [i2.failed, i4]
  cases s'.eof <;> simp

example : ∃ w s, OInv w s ∧ s.kind = .pipe :=
  ⟨[], OutS.init .pipe 128 [], oinv_init .pipe (by decide) 128 (by decide) [], rfl⟩

/-- **C26**, memory streams: the final string is everything written (below 4 GiB). -/
theorem C26_memory (bsz : Nat) (hb : 0 < bsz) (ops : List OutOp) (hl : ∀ op ∈ ops, op.Legal)
    (hsize : (written ops).length < 2 ^ 32) :
    ∃ s, outRun (OutS.init .mem bsz []) ops = some s ∧ moveToString s = some (written ops) := by
  obtain ⟨s1, e1, e2, e3, _⟩ := outRun_spec ops [] _ (oinv_init .mem (by decide) bsz hb []) hl
  refine ⟨s1, e1, ?_⟩
  have hk : s1.kind = .mem := e3
  have hm := (e2.mem hk).1
  rw [List.nil_append] at hm
  have h1 := e2.fl; have h2 := e2.len; have h3 := e2.lim
  unfold moveToString
  rw [if_neg (by simp [hk]), if_neg (by omega), if_neg (by omega)]
  dsimp only
  rw [hm, if_pos hsize]

example : ∃ s, outRun (OutS.init .mem 4 []) [.write [1, 2, 3, 4, 5], .writeByte 6] = some s ∧
    moveToString s = some [1, 2, 3, 4, 5, 6] := ⟨_, rfl, by decide⟩

/-- **C26**, fixed-size views: one write stores as much as fits and reports whether all of it did. -/
theorem C26_view (s : OutS) (src : List Byte) (hk : s.kind = .view) (he : s.eof = false)
    (hlen : s.buf.length ≤ s.limit) (hl : src.length < 2 ^ 31) :
    ∃ s', Stream.write src s = some (decide (src.length ≤ s.limit - s.buf.length), s') ∧
      s'.buf = s.buf ++ src.take (s.limit - s.buf.length) ∧ s'.limit = s.limit := by
  unfold Stream.write
  dsimp only
  rw [if_pos hl]
  by_cases h1 : (src.length : Int) > ((s.limit - s.buf.length : Nat) : Int)
  · rw [if_pos h1, he]
    simp only [Bool.false_eq_true, ↓reduceIte]
    have hno : ¬ src.length ≤ s.limit - s.buf.length := by omega
    have key : ∀ (fuel : Nat) (src : List Byte) (s : OutS), s.kind = .view → s.buf.length ≤ s.limit →
        src.length ≤ fuel → s.limit - s.buf.length < src.length →
        ∃ s', writeLoop fuel src s = some (false, s') ∧
          s'.buf = s.buf ++ src.take (s.limit - s.buf.length) ∧ s'.limit = s.limit := by
      intro fuel
      induction fuel with
      | zero => intro src s _ _ h2 h3; omega
      | succ fuel ih =>
        intro src s hk hlen h2 h3
        cases src with
        | nil => simp at h3
        | cons b bs =>
          simp only [writeLoop, outTryMake]
          by_cases h4 : s.limit - s.buf.length < 1
          · have h0 : s.limit - s.buf.length = 0 := by omega
            rw [if_pos h4, if_pos hk, h0]
            simp
          · rw [if_neg h4]
            have hm : min (s.limit - s.buf.length) (b :: bs).length = s.limit - s.buf.length := by
              omega
            simp only [Nat.one_ne_zero, ↓reduceIte, hm]
            have hfit : s.buf.length + ((b :: bs).take (s.limit - s.buf.length)).length ≤ s.limit := by
              rw [List.length_take]; omega
            unfold put
            rw [if_pos hfit]
            dsimp only
            have htl : ((b :: bs).take (s.limit - s.buf.length)).length = s.limit - s.buf.length := by
              rw [List.length_take]; omega
            obtain ⟨s', i1, i2, i3⟩ := ih ((b :: bs).drop (s.limit - s.buf.length))
              { s with buf := s.buf ++ (b :: bs).take (s.limit - s.buf.length) } hk
              (by dsimp only; rw [List.length_append]; exact hfit)
              (by rw [List.length_drop]; omega)
              (by dsimp only; rw [List.length_append, htl, List.length_drop]; omega)
            refine ⟨s', i1, ?_, i3⟩
            rw [i2]
            dsimp only
            rw [List.length_append, htl]
            have : s.limit - (s.buf.length + (s.limit - s.buf.length)) = 0 := by omega
            rw [this, List.take_zero, List.append_nil]
    obtain ⟨s', k1, k2, k3⟩ := key src.length src s hk hlen (Nat.le_refl _) (by omega)
    exact ⟨s', by rw [k1]; simp [hno], k2, k3⟩
  · rw [if_neg h1]
    have hle : src.length ≤ s.limit - s.buf.length := by omega
    have hput : put src s = some { s with buf := s.buf ++ src } := by
      unfold put; rw [if_pos (by omega)]
    rw [hput]
    refine ⟨{ s with buf := s.buf ++ src }, ?_, by dsimp only; rw [List.take_of_length_le hle], rfl⟩
    simp [he, hle]

example : (OutS.init .view 3 []).kind = .view ∧ (OutS.init .view 3 []).eof = false := by decide

/-- **C26**, disagreement: after a *multi-byte* request fails with room for fewer bytes left, the
stream's end pointer is moved and the next flush (also the destructor's) fails an assertion. -/
theorem C26_flush_after_failed_request_asserts :
    ∃ s1 s2, Stream.write [1, 2, 3] (OutS.init .pipe 128 [.fails 0]) = some (true, s1) ∧
      outTryMake 127 s1 = some (0, s2) ∧ Stream.flush s2 = none := by
  refine ⟨_, _, rfl, rfl, by decide⟩

/-- **C26**, disagreement: a single write of 2 GiB or more writes past the end of the buffer
(`none`), because the size is compared as a signed number. -/
theorem C26_huge_write_overruns (s : OutS) (src : List Byte) (h1 : 2 ^ 31 ≤ src.length)
    (h2 : src.length < 2 ^ 32) (h3 : s.limit < 2 ^ 31) : Stream.write src s = none := by
  unfold Stream.write
  dsimp only
  rw [if_neg (by omega)]
  have : put src s = none := by unfold put; rw [if_neg (by omega)]
  rw [this]

example : ∃ src : List Byte, 2 ^ 31 ≤ src.length ∧ src.length < 2 ^ 32 :=
  ⟨List.replicate (2 ^ 31) 0, by rw [List.length_replicate]; exact ⟨Nat.le_refl _, by decide⟩⟩

/-! ## C05 -/

theorem newlines_append (crlf : Bool) (a b : List Byte) :
    newlines crlf (a ++ b) = newlines crlf a ++ newlines crlf b := by
  simp [newlines]

theorem newlines_nextByte (crlf : Bool) (src : List Byte) :
    (nextByte src = none → newlines crlf src = []) ∧
    (∀ c cs, nextByte src = some (c, cs) → c ≠ 13 ∧ cs.length < src.length ∧ (∃ p, src = p ++ cs) ∧
      newlines crlf src = (if c = 10 ∧ crlf = true then [13, 10] else [c]) ++ newlines crlf cs) := by
  induction src with
  | nil => simp [nextByte, newlines]
  | cons x xs ih =>
    by_cases hx : x = 13
    · subst hx
      have e : newlines crlf (13 :: xs) = newlines crlf xs := by simp [newlines]
      simp only [nextByte, ↓reduceIte, e]
      refine ⟨ih.1, fun c cs h => ?_⟩
      obtain ⟨a, b, ⟨p, hp⟩, d⟩ := ih.2 c cs h
      exact ⟨a, by simp only [List.length_cons]; omega, ⟨13 :: p, by simp [hp]⟩, d⟩
    · simp only [nextByte, hx, ↓reduceIte, reduceCtorEq, false_implies, Option.some.injEq,
        Prod.mk.injEq, and_imp, true_and]
      rintro _ _ rfl rfl
      exact ⟨hx, by simp, ⟨[x], rfl⟩, by simp [newlines, hx]⟩

/-- A pending line feed. -/
def NL.pending (f : NL) : List Byte := if f.needsLF then [10] else []

theorem process_spec (cap : Nat) (f : NL) (src : List Byte) :
    (process cap f src).2.2 ++ (process cap f src).1.pending ++
        newlines f.crlf (process cap f src).2.1 = f.pending ++ newlines f.crlf src ∧
    (process cap f src).1.crlf = f.crlf ∧
    (process cap f src).2.2.length ≤ cap ∧
    (process cap f src).2.1.length ≤ src.length ∧ (∃ p, src = p ++ (process cap f src).2.1) ∧
    ((process cap f src).2.2.length < cap →
      (process cap f src).2.1 = [] ∧ (process cap f src).1.needsLF = false) := by
  induction cap generalizing f src with
  | zero => exact ⟨by simp [process], rfl, Nat.le_refl _, Nat.le_refl _, ⟨[], rfl⟩, by simp [process]⟩
  | succ cap ih =>
    by_cases hn : f.needsLF = true
    · simp only [process, hn, ↓reduceIte]
      obtain ⟨i1, i2, i3, i4, i4', i5⟩ := ih { f with needsLF := false } src
      dsimp only at i1 i2
      refine ⟨?_, i2, by simp only [List.length_cons]; omega, i4, i4', fun h => i5 (by
        simp only [List.length_cons] at h; omega)⟩
      simp only [List.cons_append, i1]
      simp [NL.pending, hn]
    · have hn' : f.needsLF = false := by simpa using hn
      obtain ⟨n1, n2⟩ := newlines_nextByte f.crlf src
      cases hb : nextByte src with
      | none =>
        simp only [process, hn', hb, Bool.false_eq_true, ↓reduceIte]
        have e : newlines f.crlf [] = [] := by simp [newlines]
        rw [n1 hb, e]
        exact ⟨by simp, trivial, by simp, by simp, ⟨src, by simp⟩, fun _ => ⟨trivial, trivial⟩⟩
      | some r =>
        obtain ⟨c, cs⟩ := r
        obtain ⟨m1, m2, ⟨p, m3⟩, m4⟩ := n2 c cs hb
        by_cases hc : c = 10 ∧ f.crlf = true
        · have hstep : process (cap + 1) f src =
              ((process cap { f with needsLF := true } cs).1,
                (process cap { f with needsLF := true } cs).2.1,
                13 :: (process cap { f with needsLF := true } cs).2.2) := by
            simp only [process, hn', hb, Bool.false_eq_true, ↓reduceIte]
            rw [if_pos hc]
          rw [hstep]
          obtain ⟨i1, i2, i3, i4, ⟨q, i4'⟩, i5⟩ := ih { f with needsLF := true } cs
          dsimp only at i1 i2 ⊢
          refine ⟨?_, i2, by simp only [List.length_cons]; omega, by omega, ⟨p ++ q, by
            rw [List.append_assoc, ← i4']; exact m3⟩, fun h => i5 (by
            simp only [List.length_cons] at h; omega)⟩
          simp only [List.cons_append, i1]
          rw [m4, if_pos hc]
          simp [NL.pending, hn']
        · simp only [process, hn', hb, hc, Bool.false_eq_true, ↓reduceIte]
          obtain ⟨i1, i2, i3, i4, ⟨q, i4'⟩, i5⟩ := ih f cs
          refine ⟨?_, i2, by simp only [List.length_cons]; omega, by omega, ⟨p ++ q, by
            rw [List.append_assoc, ← i4']; exact m3⟩, fun h => i5 (by
            simp only [List.length_cons] at h; omega)⟩
          simp only [List.cons_append, i1]
          rw [m4, if_neg hc]
          simp [NL.pending, hn']

/-- Calls of the filter: each presents a further piece of source after what was left over, and a
destination capacity.  Gives the state, the left-over source and all output. -/
def feed (f : NL) (left : List Byte) : List (List Byte × Nat) → NL × List Byte × List Byte
  | [] => (f, left, [])
  | (piece, cap) :: calls =>
    let r := process cap f (left ++ piece)
    let rs := feed r.1 r.2.1 calls
    (rs.1, rs.2.1, r.2.2 ++ rs.2.2)

/-- **C05.** However the source is cut into pieces and however small the destinations are, the
output so far, completed by the filter on what is left over, is the filter of the whole text; and
once a call leaves room in its destination there is nothing left over: the output is exactly the
filtered text. -/
theorem C05_any_calls (crlf : Bool) (calls : List (List Byte × Nat)) :
    let r := feed ⟨crlf, false⟩ [] calls
    r.2.2 ++ r.1.pending ++ newlines crlf r.2.1 = newlines crlf (calls.map (·.1)).flatten := by
  have key : ∀ (calls : List (List Byte × Nat)) (f : NL) (left : List Byte),
      (feed f left calls).2.2 ++ (feed f left calls).1.pending ++
        newlines f.crlf (feed f left calls).2.1 =
      f.pending ++ newlines f.crlf (left ++ (calls.map (·.1)).flatten) := by
    intro calls
    induction calls with
    | nil => intro f left; simp [feed]
    | cons c cs ih =>
      obtain ⟨piece, cap⟩ := c
      intro f left
      obtain ⟨i1, i2, _, _, _, _⟩ := process_spec cap f (left ++ piece)
      have := ih (process cap f (left ++ piece)).1 (process cap f (left ++ piece)).2.1
      rw [i2] at this
      simp only [feed, List.map_cons, List.flatten_cons]
      rw [List.append_assoc, List.append_assoc]
      rw [List.append_assoc] at this
      rw [this, newlines_append, ← List.append_assoc, ← List.append_assoc, i1,
        ← List.append_assoc, newlines_append _ (left ++ piece)]
      simp
  have := key calls ⟨crlf, false⟩ []
  simpa [NL.pending] using this

example : feed ⟨true, false⟩ [] [([97, 10], 2), ([13, 98], 1), ([10], 5)] =
    (⟨true, false⟩, [], [97, 13, 10, 98, 13, 10]) := by decide

theorem C05_complete (crlf : Bool) (calls : List (List Byte × Nat)) (piece : List Byte) (cap : Nat)
    (hroom : (process cap (feed ⟨crlf, false⟩ [] calls).1
      ((feed ⟨crlf, false⟩ [] calls).2.1 ++ piece)).2.2.length < cap) :
    (feed ⟨crlf, false⟩ [] (calls ++ [(piece, cap)])).2.2 =
      newlines crlf ((calls.map (·.1)).flatten ++ piece) := by
  have hsnoc : ∀ (calls : List (List Byte × Nat)) (f : NL) (left : List Byte),
      feed f left (calls ++ [(piece, cap)]) =
        let r := feed f left calls
        let q := process cap r.1 (r.2.1 ++ piece)
        (q.1, q.2.1, r.2.2 ++ q.2.2) := by
    intro calls
    induction calls with
    | nil => intro f left; simp [feed]
    | cons c cs ih =>
      obtain ⟨p, k⟩ := c
      intro f left
      simp only [List.cons_append, feed, ih, List.append_assoc]
  have h := C05_any_calls crlf (calls ++ [(piece, cap)])
  have h2 := hsnoc calls ⟨crlf, false⟩ []
  dsimp only at h h2
  obtain ⟨_, _, _, _, _, i5⟩ := process_spec cap (feed ⟨crlf, false⟩ [] calls).1
    ((feed ⟨crlf, false⟩ [] calls).2.1 ++ piece)
  obtain ⟨j1, j2⟩ := i5 hroom
  have e1 : (feed ⟨crlf, false⟩ [] (calls ++ [(piece, cap)])).2.1 = [] := by rw [h2]; exact j1
  have e2 : (feed ⟨crlf, false⟩ [] (calls ++ [(piece, cap)])).1.pending = [] := by
    rw [h2]; simp [NL.pending, j2]
  rw [e1, e2] at h
  have e3 : newlines crlf [] = [] := by simp [newlines]
  rw [e3] at h
  simpa using h

example : (process 5 (feed ⟨true, false⟩ [] [([97, 10], 2)]).1
    ((feed ⟨true, false⟩ [] [([97, 10], 2)]).2.1 ++ [98])).2.2.length < 5 := by decide

theorem filterWrite_spec (fuel : Nat) (f : NL) (s : OutS) (src w : List Byte) (h : OInv w s)
    (hb : 2 ≤ s.blockSize) (hpend : f.needsLF = true → s.buf.length = s.limit)
    (hf : src.length < fuel) :
    ∃ ok f' s', filterWrite fuel f s src = some (ok, f', s') ∧
      OInv (w ++ f.pending ++ newlines f.crlf src) s' ∧ f'.crlf = f.crlf ∧ s'.kind = s.kind ∧
      s'.blockSize = s.blockSize ∧ (s.eof = true → s'.eof = true) ∧
      (s'.eof = false → ok = true ∧ f'.needsLF = false) ∧
      (f'.needsLF = true → s'.buf.length = s'.limit) := by
  induction fuel generalizing f s src w with
  | zero => omega
  | succ fuel ih =>
    obtain ⟨k, s1, e1, e2, e3, eb, e4, e5⟩ := outTryMake_one w s h
    simp only [filterWrite, e1]
    obtain ⟨i1, i2, i3, i4, ⟨pre, i4'⟩, i5⟩ := process_spec (s1.limit - s1.buf.length) f src
    generalize hr : process (s1.limit - s1.buf.length) f src = r at *
    have hlen1 := e2.len
    obtain ⟨p1, p2⟩ := put_spec w r.2.2 s1 e2 (by omega)
    rw [p1]
    dsimp only
    by_cases hz : src.length - r.2.1.length = 0
    · rw [if_pos hz]
      have hsrc : r.2.1 = src := by
        have hpl : pre.length = 0 := by
          have := congrArg List.length i4'
          rw [List.length_append] at this; omega
        have : pre = [] := List.length_eq_zero_iff.mp hpl
        rw [this] at i4'
        exact i4'.symm
      rcases e5 with ⟨hk, hroom, heof, hcase⟩ | ⟨hk, heof, hfull, _⟩
      · -- some room, nothing consumed: the source is empty
        by_cases hlt : r.2.2.length < s1.limit - s1.buf.length
        · obtain ⟨j1, j2⟩ := i5 hlt
          refine ⟨_, r.1, _, rfl, ?_, i2, e3, eb, e4, ?_, ?_⟩
          · rw [j1] at i1
            have e0 : newlines f.crlf [] = [] := by simp [newlines]
            rw [e0] at i1
            have : r.2.2 = f.pending ++ newlines f.crlf src := by
              rw [← i1]; simp [NL.pending, j2]
            rw [List.append_assoc, ← this]
            exact p2
          · intro _
            exact ⟨by rw [← hsrc, j1]; rfl, j2⟩
          · intro hh; rw [j2] at hh; simp at hh
        · -- room was filled although nothing was consumed: only a pending line feed, one byte
          exfalso
          have hfill : r.2.2.length = s1.limit - s1.buf.length := by omega
          rw [hsrc] at i1
          have hpl : r.2.2 ++ r.1.pending = f.pending := by
            exact List.append_cancel_right i1
          have hl := congrArg List.length hpl
          rw [List.length_append] at hl
          have hp1 : f.pending.length ≤ 1 := by
            unfold NL.pending; split <;> simp
          have hpend1 : f.pending.length = 1 := by omega
          have hnl : f.needsLF = true := by
            unfold NL.pending at hpend1
            split at hpend1
            · assumption
            · simp at hpend1
          have hfull := hpend hnl
          rcases hcase with hcase | ⟨hc1, hc2⟩
          · rw [hcase] at hroom; omega
          · rw [hc1] at hfill; simp only [List.length_nil] at hfill; omega
      · -- no room: the stream is at its end
        have hr2 : r.2.2 = [] := List.length_eq_zero_iff.mp (by omega)
        refine ⟨_, r.1, _, rfl, ?_, i2, e3, eb, e4, ?_, ?_⟩
        · rw [hr2, List.append_nil] at p2
          have : OInv w { s1 with buf := s1.buf ++ r.2.2 } := by rw [hr2]; simpa using p2
          rw [List.append_assoc]
          exact this.weaken heof _
        · intro hh; rw [heof] at hh; simp at hh
        · intro _; rw [hr2]; simp [hfull]
    · rw [if_neg hz]
      have hpend2 : r.1.needsLF = true →
          ({ s1 with buf := s1.buf ++ r.2.2 } : OutS).buf.length =
            ({ s1 with buf := s1.buf ++ r.2.2 } : OutS).limit := by
        intro hh
        dsimp only
        by_cases hlt : r.2.2.length < s1.limit - s1.buf.length
        · rw [(i5 hlt).2] at hh; simp at hh
        · rw [List.length_append]; omega
      obtain ⟨ok, f', s', j1, j2, j3, j4, j5, j6, j7, j8⟩ := ih r.1 _ r.2.1 _ p2 (by
        dsimp only; rw [eb]; exact hb) hpend2 (by omega)
      refine ⟨ok, f', s', j1, ?_, j3.trans i2, j4.trans e3, j5.trans eb, fun he => j6 (e4 he), j7, j8⟩
      rw [i2] at j2
      have e : w ++ r.2.2 ++ r.1.pending ++ newlines f.crlf r.2.1 =
          w ++ f.pending ++ newlines f.crlf src := by
        simp only [List.append_assoc] at i1 ⊢
        rw [i1]
      rw [← e]; exact j2

/-- A sequence of writes to a newline-filtering pipe. -/
def filterWrites (f : NL) (s : OutS) : List (List Byte) → Option (List Bool × NL × OutS)
  | [] => some ([], f, s)
  | b :: bs =>
    match filterWrite (b.length + 1) f s b with
    | none => none
    | some (ok, f', s') =>
      match filterWrites f' s' bs with
      | none => none
      | some (oks, f'', s'') => some (ok :: oks, f'', s'')

/-- **C05**, writing: any sequence of writes through a newline-filtering pipe onto an output stream
of any block size runs without assertion failures; after flushing, the pipe behind it has received
exactly the filtered concatenation and every write returned true, unless that pipe failed, in which
case it received a prefix of it. -/
theorem C05_write (crlf : Bool) (bsz : Nat) (hb : 2 ≤ bsz) (script : List PipeWrite)
    (bufs : List (List Byte)) :
    ∃ oks f s s', filterWrites ⟨crlf, false⟩ (OutS.init .pipe bsz script) bufs = some (oks, f, s) ∧
      Stream.flush s = some s' ∧
      (s'.sink.failed = false → s'.sink.got = newlines crlf bufs.flatten ∧ ∀ o ∈ oks, o = true) ∧
      s'.sink.got <+: newlines crlf bufs.flatten := by
  have key : ∀ (bufs : List (List Byte)) (f : NL) (s : OutS) (w : List Byte), OInv w s →
      2 ≤ s.blockSize → (f.needsLF = true → s.buf.length = s.limit) → (s.eof = false → f.needsLF = false) →
      ∃ oks f' s', filterWrites f s bufs = some (oks, f', s') ∧
        OInv (w ++ newlines f.crlf bufs.flatten) s' ∧ s'.kind = s.kind ∧
        (s.eof = true → s'.eof = true) ∧ (s'.eof = false → ∀ o ∈ oks, o = true) := by
    intro bufs
    induction bufs with
    | nil =>
      intro f s w h _ _ _
      exact ⟨[], f, s, rfl, by simpa [newlines] using h, rfl, fun x => x, by simp⟩
    | cons b bs ih =>
      intro f s w h hbs hp hq
      obtain ⟨ok, f', s', e1, e2, e3, e4, e5, e6, e7, e8⟩ :=
        filterWrite_spec (b.length + 1) f s b w h hbs hp (by omega)
      have e2' : OInv (w ++ newlines f.crlf b) s' := by
        by_cases hs : s.eof = true
        · -- at the end only the prefix matters
          have he := e6 hs
          -- rebuild from the weaker statement
          by_cases hk : s'.kind = .pipe
          · refine ⟨e2.notView, e2.bsz, e2.len, e2.lim, e2.fl, ?_, ?_, ?_, e2.failed, e2.quiet⟩
            · intro hm; exact absurd (hk.symm.trans hm) (by decide)
            · intro _ hf; rw [he] at hf; simp at hf
            · intro _
              -- nothing was sent in this call
              have hh := (h.weaken hs (newlines f.crlf b)).pipePre (by rw [← e4]; exact hk)
              -- the sink is unchanged once the stream is at its end
              have hsink : s'.sink = s.sink := by
                have hs1 : ∀ (fuel : Nat) (f : NL) (s : OutS) (src w : List Byte), OInv w s →
                    s.eof = true → ∀ ok f' s', filterWrite fuel f s src = some (ok, f', s') →
                    s'.sink = s.sink := by
                  intro fuel
                  induction fuel with
                  | zero => intro f s src w _ _ ok f' s' hh; simp [filterWrite] at hh
                  | succ fuel ih2 =>
                    intro f s src w hinv hse ok f' s' hh
                    have ht : outTryMake 1 s = some (0, s) ∨ outTryMake 1 s = some (1, s) := by
                      unfold outTryMake
                      by_cases hl : s.limit - s.buf.length < 1
                      · rw [if_pos hl, if_neg hinv.notView, if_pos hse]; exact Or.inl rfl
                      · rw [if_neg hl]; exact Or.inr rfl
                    have ht' : ∃ k, outTryMake 1 s = some (k, s) := by
                      rcases ht with ht | ht <;> exact ⟨_, ht⟩
                    obtain ⟨k, ht⟩ := ht'
                    simp only [filterWrite, ht] at hh
                    obtain ⟨_, _, i3, _, _, _⟩ := process_spec (s.limit - s.buf.length) f src
                    have hlen := hinv.len
                    obtain ⟨p1, p2⟩ := put_spec w _ s hinv
                      (show s.buf.length + (process (s.limit - s.buf.length) f src).2.2.length ≤ s.limit
                        by omega)
                    rw [p1] at hh
                    dsimp only at hh
                    split at hh
                    · simp only [Option.some.injEq, Prod.mk.injEq] at hh
                      rw [← hh.2.2]
                    · have := ih2 _ _ _ _ p2 hse _ _ _ hh
                      rw [this]
                exact hs1 _ _ _ _ _ h hs _ _ _ e1
              rw [hsink]
              exact hh
          · have hm : s'.kind = .mem := by
              cases hk' : s'.kind with
              | view => exact absurd hk' e2.notView
              | pipe => exact absurd hk' hk
              | mem => rfl
            have := (e2.mem hm).2
            rw [he] at this; simp at this
        · have hsf : s.eof = false := by simpa using hs
          have : f.pending = [] := by simp [NL.pending, hq hsf]
          rw [this, List.append_nil] at e2
          exact e2
      obtain ⟨oks, f'', s'', i1, i2, i3, i4, i5⟩ := ih f' s' _ e2' (by rw [e5]; exact hbs) e8
        (fun he => (e7 he).2)
      refine ⟨ok :: oks, f'', s'', by simp only [filterWrites, e1, i1], ?_, i3.trans e4,
        fun he => i4 (e6 he), ?_⟩
      · rw [e3] at i2
        simp only [List.flatten_cons, newlines_append]
        rw [List.append_assoc] at i2
        exact i2
      · intro he o ho
        have hs' : s'.eof = false := by
          cases hh : s'.eof with
          | false => rfl
          | true => rw [i4 hh] at he; simp at he
        simp only [List.mem_cons] at ho
        rcases ho with rfl | ho
        · exact (e7 hs').1
        · exact i5 he o ho
  obtain ⟨oks, f, s, e1, e2, e3, _, e5⟩ := key bufs ⟨crlf, false⟩ (OutS.init .pipe bsz script) []
    (oinv_init .pipe (by decide) bsz (by omega) script) hb (by simp) (by simp)
  obtain ⟨s', f1, f2, f3, f4, f5, f6, f7, f8⟩ := flushInternal_spec _ s e2
  have hk : s'.kind = .pipe := f6.trans e3
  refine ⟨oks, f, s, s', e1, by simp only [Stream.flush, f1], ?_, ?_⟩
  · intro hfail
    have hef : s'.eof = false := by rw [← f2.failed]; exact hfail
    have := f2.pipeOk hk hef
    rw [f3] at this
    rw [f4, List.drop_length, List.append_nil, List.nil_append] at this
    refine ⟨this, e5 ?_⟩
    cases hh : s.eof with
    | false => rfl
    | true => rw [f8 hh] at hef; simp at hef
  · simpa using f2.pipePre hk

example : ∃ r, filterWrites ⟨true, false⟩ (OutS.init .pipe 4 []) [[97, 10], [10, 13, 98]] = some r ∧
    r.1 = [true, true] := ⟨_, rfl, rfl⟩

theorem filterRead_spec (fuel cap : Nat) (f : NL) (s : InS) (h : Inv s) (hc : Clean s.src)
    (hcap : 0 < cap) (hf : s.unread.length + (if s.avail = [] then 1 else 0) < fuel) :
    ∃ out f' s', filterRead fuel cap f s = some (out, f', s') ∧ Inv s' ∧ Clean s'.src ∧
      f'.crlf = f.crlf ∧ out.length ≤ cap ∧ s'.unread.length ≤ s.unread.length ∧
      out ++ f'.pending ++ newlines f.crlf s'.unread = f.pending ++ newlines f.crlf s.unread ∧
      (out = [] → s'.unread = [] ∧ f'.needsLF = false) := by
  induction fuel generalizing f s with
  | zero => omega
  | succ fuel ih =>
    simp only [filterRead]
    rw [if_neg (by omega)]
    obtain ⟨i1, i2, i3, i4, ⟨pre, i4'⟩, i5⟩ := process_spec cap f s.avail
    generalize hr : process cap f s.avail = r at *
    have hpre : pre.length = s.avail.length - r.2.1.length := by
      have := congrArg List.length i4'
      rw [List.length_append] at this; omega
    obtain ⟨a1, a2, a3⟩ := advance_same s h (s.avail.length - r.2.1.length) (by omega)
    have hav1 : ({ s with cur := s.cur + (s.avail.length - r.2.1.length) } : InS).avail = r.2.1 := by
      rw [← hpre]
      simp only [InS.avail] at i4' ⊢
      rw [← List.drop_drop, i4', List.drop_left]
    have hun : s.unread = pre ++ ({ s with cur := s.cur + (s.avail.length - r.2.1.length) } : InS).unread := by
      simp only [InS.unread]
      rw [hav1]
      simp only [← List.append_assoc]
      rw [← i4']
    have hnl : newlines f.crlf s.unread = newlines f.crlf pre ++ newlines f.crlf
        ({ s with cur := s.cur + (s.avail.length - r.2.1.length) } : InS).unread := by
      rw [hun, newlines_append]
    have hpre2 : r.2.2 ++ r.1.pending = f.pending ++ newlines f.crlf pre := by
      rw [i4', newlines_append, ← List.append_assoc] at i1
      exact List.append_cancel_right i1
    have hcs : Clean ({ s with cur := s.cur + (s.avail.length - r.2.1.length) } : InS).src := hc
    generalize hs1 : ({ s with cur := s.cur + (s.avail.length - r.2.1.length) } : InS) = s1 at *
    have hunl : s.unread.length = pre.length + s1.unread.length := by rw [hun, List.length_append]
    by_cases hne : r.2.2 ≠ []
    · rw [if_pos hne]
      refine ⟨_, _, _, rfl, a1, hcs, i2, i3, by omega, ?_, fun he => absurd he hne⟩
      rw [hnl, ← List.append_assoc, ← hpre2]
    · rw [if_neg hne]
      have hr0 : r.2.2 = [] := by simpa using hne
      obtain ⟨j1, j2⟩ := i5 (by rw [hr0]; exact hcap)
      rw [hav1, j1, if_neg (by simp)]
      have hpend : r.1.pending = [] := by simp [NL.pending, j2]
      have hfp : f.pending ++ newlines f.crlf pre = [] := by rw [← hpre2, hr0, hpend]; rfl
      obtain ⟨k, s2, e1, e2, e3, e4⟩ := tryMake_one s1 a1 hcs
      have hun2 := Same.unread a1 e2
      rw [e1]
      dsimp only
      rcases e4 with ⟨hk, hav, heof⟩ | ⟨hk, hav, hnx, hsrc, heof⟩
      · rw [if_neg (by omega)]
        have hpl : s.avail ≠ [] → 0 < pre.length := by
          intro ha
          rw [j1] at hpre
          have := List.length_pos_iff.mpr ha
          simp only [List.length_nil] at hpre
          omega
        obtain ⟨out, f', s', g1, g2, g3, g4, g5, g6, g7, g8⟩ := ih r.1 s2 e2.inv e3 (by
          rw [if_neg hav, hun2]
          by_cases ha : s.avail = []
          · rw [if_pos ha] at hf; omega
          · have := hpl ha; omega)
        refine ⟨out, f', s', g1, g2, g3, g4.trans i2, g5, by rw [hun2] at g6; omega, ?_, g8⟩
        rw [i2, hun2, hpend, List.nil_append] at g7
        rw [g7, hnl, ← List.append_assoc, hfp, List.nil_append]
      · rw [if_pos hk]
        have hu : s2.unread = [] := by
          simp only [InS.unread, hav, hnx, hsrc]; rfl
        refine ⟨[], r.1, s2, rfl, e2.inv, e3, i2, by simp, by rw [hu]; simp, ?_, fun _ => ⟨hu, j2⟩⟩
        have hu1 : s1.unread = [] := by rw [← hun2]; exact hu
        rw [hpend, hu, hnl, hu1, ← List.append_assoc, hfp]; rfl

/-- Reading to the end through the filter: one call per entry of `caps`, until a call yields
nothing. -/
def filterReads (f : NL) (s : InS) : List Nat → Option (List (List Byte) × NL × InS)
  | [] => some ([], f, s)
  | c :: cs =>
    match filterRead (s.unread.length + 2) c f s with
    | none => none
    | some (out, f', s') =>
      match filterReads f' s' cs with
      | none => none
      | some (outs, f'', s'') => some (out :: outs, f'', s'')

/-- **C05**, reading: any sequence of reads with buffers of any positive size through a
newline-filtering pipe on top of an input stream delivers the filtered text of that stream piece by
piece; a read delivers nothing only if everything has been delivered. -/
theorem C05_read (crlf : Bool) (bsz : Nat) (hb : 0 < bsz) (src : Source) (hc : Clean src)
    (caps : List Nat) (hcap : ∀ c ∈ caps, 0 < c) :
    ∃ outs f s, filterReads ⟨crlf, false⟩ (InS.init bsz src) caps = some (outs, f, s) ∧
      outs.flatten <+: newlines crlf src.flatten ∧
      ([] ∈ outs → outs.flatten = newlines crlf src.flatten) := by
  have key : ∀ (caps : List Nat) (f : NL) (s : InS), Inv s → Clean s.src → (∀ c ∈ caps, 0 < c) →
      ∃ outs f' s', filterReads f s caps = some (outs, f', s') ∧
        outs.flatten <+: f.pending ++ newlines f.crlf s.unread ∧
        ([] ∈ outs → outs.flatten = f.pending ++ newlines f.crlf s.unread) := by
    intro caps
    induction caps with
    | nil => intro f s _ _ _; exact ⟨[], f, s, rfl, by simp, by simp⟩
    | cons c cs ih =>
      intro f s hi hcl hcap
      obtain ⟨out, f', s', g1, g2, g3, g4, g5, g6, g7, g8⟩ :=
        filterRead_spec (s.unread.length + 2) c f s hi hcl (hcap c (by simp)) (by split <;> omega)
      obtain ⟨outs, f'', s'', i1, i2, i3⟩ := ih f' s' g2 g3 (fun x hx => hcap x (by simp [hx]))
      refine ⟨out :: outs, f'', s'', by simp only [filterReads, g1, i1], ?_, ?_⟩
      · rw [← g7, List.flatten_cons, List.append_assoc, ← g4]
        exact (List.prefix_append_right_inj _).mpr i2
      · intro hm
        rw [← g7, List.flatten_cons, List.append_assoc, ← g4]
        congr 1
        simp only [List.mem_cons] at hm
        rcases hm with hm | hm
        · obtain ⟨k1, k2⟩ := g8 hm.symm
          have e : f'.pending ++ newlines f'.crlf s'.unread = [] := by
            rw [k1]; simp [NL.pending, k2, newlines]
          rw [e] at i2 ⊢
          exact List.prefix_nil.mp i2
        · exact i3 hm
  have i1 : Inv (InS.init bsz src) := by
    refine ⟨?_, by simp [InS.init], hb⟩
    simp [InS.init, InS.chain, Off]
  have i2 : (InS.init bsz src).unread = src.flatten := by
    simp [InS.unread, InS.init, InS.avail]
  obtain ⟨outs, f, s, e1, e2, e3⟩ := key caps ⟨crlf, false⟩ (InS.init bsz src) i1 hc hcap
  rw [i2] at e2 e3
  exact ⟨outs, f, s, e1, by simpa [NL.pending] using e2, by simpa [NL.pending] using e3⟩

example : (filterReads ⟨true, false⟩ (InS.init 4 [[97, 10], [13, 98]]) [1, 2, 5, 3]).map (·.1) =
    some [[97], [13, 10], [98], []] := by decide +kernel

end Verif.Stream

import Verif.Crowbar.LemmasStoreRun

/-!
# The token store — properties
-/

namespace Verif.Crowbar
open Verif

theorem inv_of_run {ss : List (List Byte)} {ls : List Nat} {m : Label.LabelMap}
    (hm : Label.run Label.LabelMap.empty ss = some (ls, m)) : Label.Inv m :=
  (Label.run_spec ss _ _ _ Label.Inv.empty hm).1

/-- **C66**: the tokenizer with its compact store gives the tokens of the plain tokenizer.  Whatever is asked of
it — tokens in any mode, the last token once more — for any source of up to 16 MiB and any labels made before, it
stops exactly when the source ends within a string, and otherwise gives the same tokens at the same offsets. -/
theorem C66_reads (as : List Ask) (src : List Byte) (ss : List (List Byte)) (ls : List Nat) (m : Label.LabelMap)
    (hm : Label.run Label.LabelMap.empty ss = some (ls, m)) (hs : src.length ≤ 2 ^ 24) (hp : m.pool.length ≤ 2 ^ 29) :
    (∀ ts, Plain.run as ⟨src.length, src, none⟩ none = some ts →
      ∃ xs st, Store.run as (Store.init src m) none = some (xs, st) ∧ AllSame xs ts) ∧
    (Plain.run as ⟨src.length, src, none⟩ none = none → Store.run as (Store.init src m) none = none) := by
  have := run_sim as _ _ _ _ _ _ (sim_init src m (inv_of_run hm) hs hp)
  rcases this with ⟨h1, h2⟩ | ⟨xs, st, ts, es, h1, h2, h3, -, -⟩
  · exact ⟨fun ts h => (by rw [h2] at h; cases h), fun _ => h1⟩
  · refine ⟨fun ts' h => ?_, fun h => (by rw [h2] at h; cases h)⟩
    rw [h2] at h
    cases h
    exact ⟨xs, st, h1, h3⟩

theorem run_good {as : List Ask} {src : List Byte} {ss : List (List Byte)} {ls : List Nat} {m : Label.LabelMap}
    (hm : Label.run Label.LabelMap.empty ss = some (ls, m)) (hs : src.length ≤ 2 ^ 24) (hp : m.pool.length ≤ 2 ^ 29)
    {xs : List XTok} {st : Store} (h : Store.run as (Store.init src m) none = some (xs, st)) :
    ∃ es, Held st es xs := by
  rcases run_sim as _ _ _ _ _ _ (sim_init src m (inv_of_run hm) hs hp) with ⟨h1, -⟩ | ⟨xs', st', ts, es, h1, -, -, h4, -⟩
  · rw [h] at h1; cases h1
  · rw [h] at h1; cases h1
    exact ⟨es, h4⟩

/-- **C66**: the label of a word or of a piece of a string is the label of its text, however often it was read
and whatever was read since. -/
theorem C66_labels (as : List Ask) (src : List Byte) (ss : List (List Byte)) (ls : List Nat) (m : Label.LabelMap)
    (hm : Label.run Label.LabelMap.empty ss = some (ls, m)) (hs : src.length ≤ 2 ^ 24) (hp : m.pool.length ≤ 2 ^ 29)
    (xs : List XTok) (st : Store) (h : Store.run as (Store.init src m) none = some (xs, st)) (x : XTok) (hx : x ∈ xs)
    (ht : x.ty = .identifier ∨ x.ty = .stringLiteral) : st.labels.view x.label = some x.text := by
  obtain ⟨es, hg⟩ := run_good hm hs hp h
  refine Label.view_of_entry (hg.labs x hx ?_)
  rcases ht with e | e <;> rw [e] <;> rfl

/-- Looking up a token given before. -/
theorem expand_given {st : Store} {es : List Ent} {xs : List XTok} (hg : Held st es xs) {x : XTok} (hx : x ∈ xs)
    (hp : ¬ Passing x.ty) :
    ((∃ more, expandToken st x.idx = some { x with text := x.text ++ more }) ∧
      (∀ y ∈ xs, ¬ Passing y.ty → x.idx < y.idx → (∀ z ∈ xs, ¬ Passing z.ty → z.idx ≤ x.idx ∨ y.idx ≤ z.idx) →
        y.idx / 256 = (x.idx + 1) / 256)) ∨
    (expandToken st x.idx = none ∧ (x.idx % 256 ≠ 255 ∧ 244 < x.idx % 256) ∧
      ∃ y ∈ xs, ¬ Passing y.ty ∧ x.idx < y.idx ∧ (∀ z ∈ xs, ¬ Passing z.ty → z.idx ≤ x.idx ∨ y.idx ≤ z.idx) ∧
        y.idx / 256 ≠ (x.idx + 1) / 256) := by
  obtain ⟨es1, e, es2, d1, t1, h1, h2, h3, h4, h5, h6, h7, h8, h9⟩ := hg.seen x hx hp
  have hem : e ∈ es := by rw [h1]; simp
  -- the places of all tokens
  have place : ∀ {e2 : Ent} {es3 : List Ent} {d2 : List Byte} {t2 : List Nat}, es2 = e2 :: es3 →
      Lay (es1 ++ [e]) d2 t2 → ∀ z ∈ xs, ¬ Passing z.ty → z.idx ≤ x.idx ∨ d2.length ≤ z.idx := by
    intro e2 es3 d2 t2 he2 hd2 z hz hzp
    obtain ⟨fs1, f, fs2, c1, u1, k1, k2, k3, -⟩ := hg.seen z hz hzp
    have hlen : ∀ {a b c : List Ent} {da db : List Byte} {ta tb : List Nat}, Lay a da ta → Lay b db tb → b = a ++ c →
        da.length ≤ db.length := by
      intro a b c da db ta tb ha hb hc
      cases c with
      | nil => rw [List.append_nil] at hc; subst hc; rw [(ha.unique hb).1]; exact Nat.le_refl _
      | cons c1 c2 =>
        obtain ⟨d', t', base, r, u, g1, -, -, -, -, -, g7, -⟩ := hb.split a c1 c2 hc
        rw [(ha.unique g1).1, g7]; simp only [List.length_append]; omega
    rw [k1] at h1
    rcases List.append_eq_append_iff.mp h1 with ⟨w, w1, w2⟩ | ⟨w, w1, w2⟩
    · -- before x, or x
      left
      rw [k3, h3]
      exact hlen k2 h2 w1
    · cases w with
      | nil =>
        left
        rw [List.append_nil] at w1
        subst w1
        rw [k3, h3, (k2.unique h2).1]
        exact Nat.le_refl _
      | cons w0 w =>
        right
        rw [List.cons_append, List.cons.injEq] at w2
        rw [k3]
        refine hlen (c := w) hd2 k2 ?_
        rw [w1, w2.1]; simp
  cases es2 with
  | nil =>
    left
    obtain ⟨d1', t1', base, g1, g2, g3, g4, g5, g6, g7, g8⟩ := hg.lay.snoc_inv h1
    obtain ⟨rfl, rfl⟩ := h2.unique g1
    have hexp := expand_last st [] (es1 := es1) g2 g7 g8 g3 g4 g5 (hg.nolab e hem)
      (by have := hg.offs e hem; omega) hg.cur_le
    have h8' := h8 rfl
    refine ⟨⟨(st.src.drop (x.off + x.text.length)).take (st.cur - (x.off + x.text.length)), ?_⟩, ?_⟩
    · unfold expandToken
      rw [h3, hexp]
      dsimp only
      rw [← h3, ← h4, ← h5, ← h6]
      congr 2
      rw [show st.cur - x.off = x.text.length + (st.cur - (x.off + x.text.length)) by omega, List.take_add, h7,
        List.drop_drop]
    · intro y hy hyp hlt hz
      exfalso
      obtain ⟨fs1, f, fs2, c1, u1, k1, k2, k3, -⟩ := hg.seen y hy hyp
      rw [k1] at h1
      have hle : c1.length ≤ d1.length := by
        rcases List.append_eq_append_iff.mp h1 with ⟨w, w1, w2⟩ | ⟨w, w1, w2⟩
        · cases w with
          | nil => rw [List.append_nil] at w1; subst w1; rw [(k2.unique h2).1]; exact Nat.le_refl _
          | cons w0 w =>
            obtain ⟨d', t', base', r, u, q1, -, -, -, -, -, q7, -⟩ := h2.split fs1 w0 w w1
            rw [(k2.unique q1).1, q7]; simp only [List.length_append]; omega
        · cases w with
          | nil => rw [List.append_nil] at w1; subst w1; rw [(k2.unique h2).1]; exact Nat.le_refl _
          | cons w0 w => simp at w2
      omega
  | cons e2 es3 =>
    have h9' := h9 e2 es3 rfl
    have he2 : e2.off < st.cur := hg.offs e2 (by rw [h1]; simp)
    have hcl := hg.cur_le
    obtain ⟨d1', t1', base, q1, q2, q3, q4⟩ := expand_mid st [] hg.lay h1 (hg.nolab e hem) (by omega)
    obtain ⟨rfl, rfl⟩ := h2.unique q1
    obtain ⟨d1'', t1'', base', g1, g2, g3, g4, g5, g6, g7, -⟩ := q2.snoc_inv rfl
    have hlen := entBytes_len (base := base) g4 g5
    have hnext := hg.cover (es1 ++ [e]) e2 es3 _ _ (by simp [h1]) q2
    obtain ⟨y, hy, hyp, hyi⟩ := hnext
    have hpl := place rfl q2
    have hdl : (d1 ++ entBytes base e).length = d1.length + (entBytes base e).length := List.length_append ..
    by_cases hc : (d1 ++ entBytes base e).length / 256 = (d1.length + 1) / 256
    · left
      rw [if_pos hc] at q3
      refine ⟨⟨(st.src.drop (x.off + x.text.length)).take (e2.off - (x.off + x.text.length)), ?_⟩, ?_⟩
      · unfold expandToken
        rw [h3, q3]
        dsimp only
        rw [← h3, ← h4, ← h5, ← h6]
        congr 2
        rw [show e2.off - x.off = x.text.length + (e2.off - (x.off + x.text.length)) by omega, List.take_add, h7,
          List.drop_drop]
      · intro y' hy' hyp' hlt hz
        have a1 := hpl y' hy' hyp'
        have a2 := hz y hy hyp
        rw [hyi] at a2
        have : y'.idx = (d1 ++ entBytes base e).length := by omega
        rw [this, hc, h3]
    · right
      rw [if_neg hc] at q3
      refine ⟨by unfold expandToken; rw [h3, q3], by rw [h3]; omega, y, hy, hyp, by omega, ?_, by rw [hyi, h3]; exact hc⟩
      intro z hz hzp
      rw [hyi]
      exact hpl z hz hzp

/-- **C66**: a token that was given can be looked up later by its index and is found with its offset, type and
label and with a text that begins with its own, unless its index is among the last bytes of a block of 256. -/
theorem C66_expand_partial (as : List Ask) (src : List Byte) (ss : List (List Byte)) (ls : List Nat)
    (m : Label.LabelMap) (hm : Label.run Label.LabelMap.empty ss = some (ls, m)) (hs : src.length ≤ 2 ^ 24)
    (hp : m.pool.length ≤ 2 ^ 29) (xs : List XTok) (st : Store)
    (h : Store.run as (Store.init src m) none = some (xs, st)) (x : XTok) (hx : x ∈ xs) (hk : ¬ Passing x.ty)
    (hi : x.idx % 256 = 255 ∨ x.idx % 256 ≤ 244) :
    ∃ more, expandToken st x.idx = some { x with text := x.text ++ more } := by
  obtain ⟨es, hg⟩ := run_good hm hs hp h
  rcases expand_given hg hx hk with ⟨h1, -⟩ | ⟨-, h2, -⟩
  · exact h1
  · omega

/-- **C66**: exactly when looking up a token fails: when the token after it is stored in another block of 256
bytes than the byte after the beginning of the token itself. -/
theorem C66_expand_exact (as : List Ask) (src : List Byte) (ss : List (List Byte)) (ls : List Nat)
    (m : Label.LabelMap) (hm : Label.run Label.LabelMap.empty ss = some (ls, m)) (hs : src.length ≤ 2 ^ 24)
    (hp : m.pool.length ≤ 2 ^ 29) (xs : List XTok) (st : Store)
    (h : Store.run as (Store.init src m) none = some (xs, st)) (x : XTok) (hx : x ∈ xs) (hk : ¬ Passing x.ty) :
    expandToken st x.idx = none ↔
      ∃ y ∈ xs, ¬ Passing y.ty ∧ x.idx < y.idx ∧ (∀ z ∈ xs, ¬ Passing z.ty → z.idx ≤ x.idx ∨ y.idx ≤ z.idx) ∧
        y.idx / 256 ≠ (x.idx + 1) / 256 := by
  obtain ⟨es, hg⟩ := run_good hm hs hp h
  rcases expand_given hg hx hk with ⟨⟨more, h1⟩, h2⟩ | ⟨h1, -, h2⟩
  · rw [h1]
    constructor
    · intro h; cases h
    · rintro ⟨y, a, b, c, d, e⟩
      exact absurd (h2 y a b c d) e
  · exact ⟨fun _ => h2, fun _ => h1⟩

/-- The plain tokenizer is what the model of the parser reads from. -/
theorem C66_parser (s : PS) :
    read s = match Plain.read ⟨s.total, s.src, s.back⟩ s.nl s.inStr with
      | none => .assert
      | some (t, p) => .ok (t, { s with src := p.src, back := p.back }) := by
  have key : ∀ b, freshTok { s with back := none } =
      match Plain.fresh ⟨s.total, s.src, b⟩ s.nl s.inStr with
      | none => .assert
      | some (t, p) => .ok (t, { s with src := p.src, back := p.back }) := by
    intro b
    unfold freshTok Plain.fresh
    dsimp only
    by_cases hi : s.inStr = true
    · rw [if_pos hi]
      cases hsrc : s.src with
      | nil => rw [if_neg (by simp)]; rfl
      | cons c r =>
        rw [if_pos ⟨hi, by simp⟩]
        dsimp only
        cases readStr [] (c :: r) <;> rfl
    · rw [if_neg hi, if_neg (fun h => hi h.1)]
  unfold read Plain.read
  dsimp only
  cases hb : s.back with
  | none =>
    dsimp only
    rw [← key none]
    congr 1
    cases s; cases hb; rfl
  | some t =>
    dsimp only
    by_cases hn : t.ty = .newLine ∧ s.nl = false
    · rw [if_pos hn, if_pos hn]; exact key _
    · rw [if_neg hn, if_neg hn]

/-- Whether looking up the token given `k`-th fails after a number of reads. -/
def lookupFails (src : List Byte) (n k : Nat) : Bool :=
  match Store.run (List.replicate n (.read false false)) (Store.init src Label.LabelMap.empty) none with
  | none => false
  | some (xs, st) =>
    match xs[k]? with
    | none => false
    | some x => x.ty == .semicolon && expandToken st x.idx == none

/-- **C66** is false without that: after 129 semicolons were read, looking up the one before the last fails (its
text would end before it begins). -/
theorem C66_expand_false : ∃ (as : List Ask) (src : List Byte) (xs : List XTok) (st : Store) (x : XTok),
    Store.run as (Store.init src Label.LabelMap.empty) none = some (xs, st) ∧ x ∈ xs ∧ ¬ Passing x.ty ∧
      expandToken st x.idx = none := by
  have h : lookupFails (List.replicate 129 59) 129 127 = true := by decide +kernel
  unfold lookupFails at h
  split at h
  · cases h
  · rename_i xs st hr
    split at h
    · cases h
    · rename_i x hx
      rw [Bool.and_eq_true, beq_iff_eq, beq_iff_eq] at h
      refine ⟨_, _, xs, st, x, hr, List.mem_of_getElem? hx, ?_, h.2⟩
      rw [h.1]; decide

/-- `f (x)` read twice over, the end of the line, and a string with an embedded word: the types and offsets of the
tokens, and the text that looking up the second token gives. -/
def sampleAsks : List Ask :=
  [.read true false, .again, .read true false, .read true false, .read true false, .again, .again, .read false false,
   .read false false, .read true false, .again, .read false false, .read false true, .read false true,
   .read false false, .read false false, .read false true, .again, .read false false, .again, .read false false]

/-- `f (x)⏎"a${b}"`. -/
def sampleSrc : List Byte := [102, 32, 40, 120, 41, 10, 34, 97, 36, 123, 98, 125, 34]

example : (match Store.run sampleAsks (Store.init sampleSrc Label.LabelMap.empty) none with
    | none => false
    | some (xs, st) => xs.map (fun x => (x.ty, x.off)) ==
        [(.identifier, 0), (.identifier, 0), (.openParen, 2), (.identifier, 3), (.identifier, 3), (.closeParen, 4),
         (.newLine, 5), (.beginString, 6), (.stringLiteral, 7), (.beginStringEmbed, 8), (.identifier, 10),
         (.closeCurly, 11), (.endString, 12), (.endOfFile, 13), (.endOfFile, 13)] &&
        ((expandToken st 0).map (·.text) == some [102, 32])) = true := by
  decide +kernel

example : (match Plain.run sampleAsks ⟨sampleSrc.length, sampleSrc, none⟩ none with
    | none => false
    | some ts => ts.length == 15) = true := by
  decide +kernel

end Verif.Crowbar

import Verif.Basic
import Verif.Str.Model

/-!
# The second pass of the Markdown parser: inline elements

`md/` stands for `web/markdown/web-markdown/`.  `none` is a failed assertion.

The text of a leaf block is a list of lines.  `InlineConsumer` (md/ParseMarkdown.cpp:409-440) keeps
the current line and an index into it; here the text still to be read is one list of symbols, with
a symbol for the step from one line to the next.
-/

namespace Verif.Markdown

open Verif

/-- The bytes of an ASCII string literal (those in md/ConvertToHTML.cpp). -/
def lit (s : String) : List Byte := s.toList.map (fun c => UInt8.ofNat c.toNat)

/-- The inline node types of md/Markdown.h:23-30; `link` and `code` carry `Node::text`.  (`parent`
pointers and the fields used for other node types only are left out.) -/
inductive Inline where
  | text (t : List Byte)
  | link (dest : List Byte) (cs : List Inline)
  | code (t : List Byte)
  | soft
  | emph (cs : List Inline)
  | strong (cs : List Inline)
  deriving Repr

/-- What `InlineConsumer` (md/ParseMarkdown.cpp:409-413) can be looking at: a character of the
current line, or (`none`) the end of a line that is followed by another one. -/
abbrev Sym := Option Byte

/-- `InlineConsumer::rawLines`, md/ParseMarkdown.cpp:410, as symbols. -/
def symsOf : List (List Byte) → List Sym
  | [] => []
  | [l] => l.map some
  | l :: l' :: ls => l.map some ++ none :: symsOf (l' :: ls)

/-- `InlineConsumer::ValidIndexResult`, md/ParseMarkdown.cpp:421. -/
inductive Valid where
  | sameLine | nextLine | atEnd
  deriving DecidableEq, Repr

/-- `InlineConsumer::validIndex`, md/ParseMarkdown.cpp:423-439: the result and the new position.
Line 435 asserts that the next line is not empty. -/
def validIndex : List Sym → Option (Valid × List Sym)
  | [] => some (.atEnd, [])
  | some c :: s => some (.sameLine, some c :: s)
  | none :: some c :: s => some (.nextLine, some c :: s)
  | none :: _ => none

/-- The run of a character at the current position, as counted by the loops at
md/ParseMarkdown.cpp:455-457, 686-688, 704-706 and 713-715; a run ends with its line. -/
def runLen (c : Byte) : List Sym → Nat
  | some d :: s => if d = c then runLen c s + 1 else 0
  | _ => 0

/-- md/ParseMarkdown.cpp:461-464: one space is taken off both ends, unless there are only spaces. -/
def stripSpan (r : List Byte) : List Byte :=
  if r.head? = some 32 ∧ r.getLast? = some 32 ∧ r.any (fun c => c != 32) then
    (r.drop 1).take (r.length - 2)
  else r

/-- Result of trying to read something: an assertion failed, it is not there, or a value and the
new position. -/
inductive Try (α : Type) where
  | fail
  | no
  | ok (a : α) (s : List Sym)

theorem validIndex_len {s : List Sym} {r : Valid} {s' : List Sym} (h : validIndex s = some (r, s')) :
    s'.length ≤ s.length := by
  match s, h with
  | [], h => simp only [validIndex, Option.some.injEq, Prod.mk.injEq] at h; rw [← h.2]; simp
  | some c :: s, h => simp only [validIndex, Option.some.injEq, Prod.mk.injEq] at h; rw [← h.2]; simp
  | none :: some c :: s, h =>
    simp only [validIndex, Option.some.injEq, Prod.mk.injEq] at h; rw [← h.2]; simp
  | [none], h => simp [validIndex] at h
  | none :: none :: s, h => simp [validIndex] at h

/-- `getCodeSpan`, md/ParseMarkdown.cpp:442-472, with `acc` the characters written to `mout`. -/
def getCodeSpan (ticks : Nat) (acc : List Byte) (s : List Sym) : Try (List Byte) :=
  match h : validIndex s with
  | none => .fail
  | some (.atEnd, _) => .no
  | some (_, []) => .fail
  | some (_, none :: _) => .fail
  | some (v, some c :: t) =>
    have : t.length < s.length := by have := validIndex_len h; simp at this; omega
    let acc := if v = .nextLine then acc ++ [32] else acc
    if c = 96 then
      let tickCount := runLen 96 t + 1
      let t' := t.drop (runLen 96 t)
      if tickCount = ticks then
        if acc = [] then .fail else .ok (stripSpan acc) t'
      else
        have : t'.length < s.length := by simp only [t', List.length_drop]; omega
        getCodeSpan ticks (acc ++ List.replicate tickCount 96) t'
    else getCodeSpan ticks (acc ++ [c]) t
  termination_by s.length

/-- `isAscPunc`, md/ParseMarkdown.cpp:475-478 (characters from 0x80 up are negative there). -/
def isAscPunc (c : Byte) : Bool :=
  (0x21 ≤ c.toNat && c.toNat ≤ 0x2f) || (0x3a ≤ c.toNat && c.toNat ≤ 0x40) ||
    (0x5b ≤ c.toNat && c.toNat ≤ 0x60) || (0x7b ≤ c.toNat && c.toNat ≤ 0x7e)

/-- `Delimiter`, md/ParseMarkdown.cpp:480-500: raw text, a run of stars (`star`) or underscores
with its flanking flags, an opening bracket, or a finished element.  (`active` is never used.) -/
inductive Delim where
  | raw (t : List Byte)
  | run (star left right : Bool) (t : List Byte)
  | openLink (t : List Byte)
  | elem (e : Inline)
  deriving Repr

/-- `Delimiter::makeRun`, md/ParseMarkdown.cpp:501-517.  `prev` is the character of the line before
the run (`none` at the start of the line), `next` the one after it (`none` at the end). -/
def makeRun (star : Bool) (prev next : Option Byte) (t : List Byte) : Delim :=
  let precededByWhite := match prev with | none => true | some c => Str.isWhite c
  let followedByWhite := match next with | none => true | some c => Str.isWhite c
  let precededByPunc := match prev with | none => false | some c => isAscPunc c
  let followedByPunc := match next with | none => false | some c => isAscPunc c
  .run star
    (!followedByWhite && (!followedByPunc || (followedByPunc && (precededByWhite || precededByPunc))))
    (!precededByWhite && (!precededByPunc || (precededByPunc && (followedByWhite || followedByPunc))))
    t

/-- First loop of `parseLinkDestination`, md/ParseMarkdown.cpp:525-533. -/
def skipLeading (s : List Sym) : Try Unit :=
  match h : validIndex s with
  | none => .fail
  | some (.atEnd, _) => .no
  | some (_, []) => .fail
  | some (_, none :: _) => .fail
  | some (_, some c :: t) =>
    have : t.length < s.length := by have := validIndex_len h; simp at this; omega
    if Str.isWhite c then skipLeading t else .ok () (some c :: t)
  termination_by s.length

/-- Second loop of `parseLinkDestination`, md/ParseMarkdown.cpp:535-572, with `acc` the characters
written to `mout` and `nest` the parenthesis nesting.  After a backslash the position stays on the
escaped character (line 553 has no `ic.i++`). -/
def destLoop (nest : Nat) (acc : List Byte) (s : List Sym) : Try (List Byte × Nat) :=
  match s with
  | [] => .ok (acc, nest) []
  | none :: some c :: s => .ok (acc, nest) (some c :: s)
  | none :: _ => .fail
  | some c :: s =>
    if c = 92 then
      match s with
      | [] => .ok (acc ++ [92], nest) []
      | none :: some d :: s => .ok (acc ++ [92], nest) (some d :: s)
      | none :: _ => .fail
      | some d :: s => destLoop nest (acc ++ (if isAscPunc d then [d] else [92, d])) (some d :: s)
    else if c = 40 then destLoop (nest + 1) (acc ++ [c]) s
    else if c = 41 then
      if nest > 0 then destLoop (nest - 1) (acc ++ [c]) s else .ok (acc, nest) (some c :: s)
    else if c.toNat ≤ 32 then .ok (acc, nest) (some c :: s)
    else destLoop nest (acc ++ [c]) s

/-- Last loop of `parseLinkDestination`, md/ParseMarkdown.cpp:579-592. -/
def skipTrailing (s : List Sym) : Try Unit :=
  match h : validIndex s with
  | none => .fail
  | some (.atEnd, _) => .no
  | some (_, []) => .fail
  | some (_, none :: _) => .fail
  | some (_, some c :: t) =>
    have : t.length < s.length := by have := validIndex_len h; simp at this; omega
    if c = 41 then .ok () t
    else if Str.isWhite c then skipTrailing t else .no
  termination_by s.length

/-- `parseLinkDestination`, md/ParseMarkdown.cpp:520-593. -/
def parseLinkDestination (s : List Sym) : Try (List Byte) :=
  match skipLeading s with
  | .fail => .fail
  | .no => .no
  | .ok _ s1 =>
    match destLoop 0 [] s1 with
    | .fail => .fail
    | .no => .no
    | .ok (dest, nest) s2 =>
      if nest ≠ 0 then .no
      else
        match skipTrailing s2 with
        | .fail => .fail
        | .no => .no
        | .ok _ s3 => .ok dest s3

/-- The text of a delimiter that is not an element, md/ParseMarkdown.cpp:493. -/
def Delim.text : Delim → List Byte
  | .raw t => t
  | .run _ _ _ t => t
  | .openLink t => t
  | .elem _ => []

/-- `convertToInlineElems`, md/ParseMarkdown.cpp:595-608.  `acc` is `elements`, in reverse. -/
def convertLoop (acc : List Inline) : List Delim → List Inline
  | [] => acc.reverse
  | .elem e :: ds => convertLoop (e :: acc) ds
  | d :: ds =>
    match acc with
    | .text t :: acc' => convertLoop (.text (t ++ d.text) :: acc') ds
    | _ => convertLoop (.text d.text :: acc) ds

/-- `convertToInlineElems`, md/ParseMarkdown.cpp:595-608. -/
def convertToInlineElems (ds : List Delim) : List Inline := convertLoop [] ds

/-- Does delimiter `j` open emphasis of this kind?  md/ParseMarkdown.cpp:617. -/
def isOpener (star : Bool) : Option Delim → Bool
  | some (.run s left _ _) => (s == star) && left
  | _ => false

/-- The loop of `handleCloser`, md/ParseMarkdown.cpp:615-617: from `j` downwards, but not below
`openerPos`. -/
def findOpener (ds : List Delim) (star : Bool) (openerPos : Nat) : Nat → Option Nat
  | 0 => none
  | j + 1 =>
    if j + 1 > openerPos then
      if isOpener star ds[j]? then some j else findOpener ds star openerPos j
    else none

/-- `text.numBytes -= k`, md/ParseMarkdown.cpp:626-627. -/
def Delim.shorten (k : Nat) : Delim → Delim
  | .run s l r t => .run s l r (t.take (t.length - k))
  | d => d

/-- The bytes in runs of stars or underscores, used to see that `processEmphasis` ends (no
counterpart in md/ParseMarkdown.cpp). -/
def runBytes : List Delim → Nat
  | [] => 0
  | .run _ _ _ t :: ds => t.length + runBytes ds
  | _ :: ds => runBytes ds

/-- What `handleCloser` does once the opener `j` of closer `pos` is known,
md/ParseMarkdown.cpp:618-638: the new delimiters and the index of the new element.  The assertion
of line 620 is `none`. -/
def closeSpan (ds : List Delim) (j pos : Nat) (dj dp : Delim) : Option (List Delim × Nat) :=
  let spanLength := min dj.text.length dp.text.length
  if spanLength = 0 then none
  else
    let cs := convertToInlineElems ((ds.drop (j + 1)).take (pos - j - 1))
    let e := if spanLength ≥ 2 then Inline.strong cs else Inline.emph cs
    let k := min spanLength 2
    let ds1 := (ds.set j (dj.shorten k)).set pos (dp.shorten k)
    let j' := if (dj.shorten k).text = [] then j else j + 1
    let pos' := if (dp.shorten k).text = [] then pos else pos - 1
    some (ds1.take j' ++ .elem e :: ds1.drop (pos' + 1), j')

theorem runBytes_append (a b : List Delim) : runBytes (a ++ b) = runBytes a + runBytes b := by
  induction a with
  | nil => simp [runBytes]
  | cons d a ih => cases d <;> simp [runBytes, ih] <;> omega

/-- A delimiter, if its text is not used up. -/
def keep (d : Delim) : List Delim := if d.text = [] then [] else [d]

/-- `closeSpan` on a list taken apart at the two delimiters. -/
theorem closeSpan_eq (a b c : List Delim) (dj dp : Delim) :
    closeSpan (a ++ dj :: (b ++ dp :: c)) a.length (a.length + 1 + b.length) dj dp =
      let n := min dj.text.length dp.text.length
      if n = 0 then none
      else
        let cs := convertToInlineElems b
        let e := if n ≥ 2 then Inline.strong cs else Inline.emph cs
        let k := min n 2
        some (a ++ keep (dj.shorten k) ++ .elem e :: (keep (dp.shorten k) ++ c),
          a.length + (keep (dj.shorten k)).length) := by
  have hset : ∀ x y : Delim, ((a ++ dj :: (b ++ dp :: c)).set a.length x).set
      (a.length + 1 + b.length) y = a ++ x :: (b ++ y :: c) := by
    intro x y
    rw [List.set_append_right _ _ (Nat.le_refl _), Nat.sub_self, List.set_cons_zero,
      List.set_append_right _ _ (by omega)]
    rw [show a.length + 1 + b.length - a.length = b.length + 1 by omega, List.set_cons_succ,
      List.set_append_right _ _ (Nat.le_refl _), Nat.sub_self, List.set_cons_zero]
  have hb : (List.drop (a.length + 1) (a ++ dj :: (b ++ dp :: c))).take
      (a.length + 1 + b.length - a.length - 1) = b := by
    rw [List.drop_append, List.drop_of_length_le (by omega), List.nil_append,
      show a.length + 1 - a.length = 1 by omega, List.drop_one, List.tail_cons,
      show a.length + 1 + b.length - a.length - 1 = b.length by omega]
    simp
  unfold closeSpan
  dsimp only
  rw [hb]
  split
  · rfl
  · rw [hset]
    generalize hx : Delim.shorten (min (min dj.text.length dp.text.length) 2) dj = x
    generalize hy : Delim.shorten (min (min dj.text.length dp.text.length) 2) dp = y
    have htake : (a ++ x :: (b ++ y :: c)).take (if x.text = [] then a.length else a.length + 1) =
        a ++ keep x := by
      unfold keep
      split
      · simp
      · rw [List.take_append, List.take_of_length_le (by omega)]
        simp
    have hdrop : (a ++ x :: (b ++ y :: c)).drop
        ((if y.text = [] then a.length + 1 + b.length else a.length + 1 + b.length - 1) + 1) =
        keep y ++ c := by
      have e : a ++ x :: (b ++ y :: c) = (a ++ x :: b) ++ y :: c := by simp
      have hl : (a ++ x :: b).length = a.length + 1 + b.length := by simp; omega
      rw [e, ← hl]
      unfold keep
      split
      · rw [List.drop_append, List.drop_of_length_le (by omega), Nat.add_sub_cancel_left]; simp
      · rw [show (a ++ x :: b).length - 1 + 1 = (a ++ x :: b).length by omega, List.drop_append,
          List.drop_of_length_le (by omega), Nat.sub_self]
        simp
    rw [htake, hdrop]
    congr 2
    · unfold keep
      split <;> simp

/-- Taking a list apart at two positions. -/
theorem split_two {α : Type} {ds : List α} {j pos : Nat} {dj dp : α} (hj : ds[j]? = some dj)
    (hp : ds[pos]? = some dp) (h : j < pos) :
    ∃ a b c, ds = a ++ dj :: (b ++ dp :: c) ∧ j = a.length ∧ pos = a.length + 1 + b.length := by
  obtain ⟨hj', ej⟩ := List.getElem?_eq_some_iff.mp hj
  obtain ⟨hp', ep⟩ := List.getElem?_eq_some_iff.mp hp
  refine ⟨ds.take j, (ds.drop (j + 1)).take (pos - (j + 1)), ds.drop (pos + 1), ?_, ?_, ?_⟩
  · have e1 : ds = ds.take j ++ dj :: ds.drop (j + 1) := by
      rw [← ej, ← List.drop_eq_getElem_cons hj', List.take_append_drop]
    have e2 : ds.drop (j + 1) =
        (ds.drop (j + 1)).take (pos - (j + 1)) ++ dp :: ds.drop (pos + 1) := by
      have : ds.drop (pos) = dp :: ds.drop (pos + 1) := by
        rw [← ep, ← List.drop_eq_getElem_cons hp']
      rw [← this]
      have h2 : ds.drop pos = (ds.drop (j + 1)).drop (pos - (j + 1)) := by
        rw [List.drop_drop]; congr 1; omega
      rw [h2, List.take_append_drop]
    rw [← e2]; exact e1
  · rw [List.length_take]; omega
  · rw [List.length_take, List.length_take, List.length_drop]; omega

theorem findOpener_lt {ds : List Delim} {star : Bool} {lo j : Nat} :
    ∀ {p : Nat}, findOpener ds star lo p = some j → j < p
  | 0, h => by simp [findOpener] at h
  | p + 1, h => by
    simp only [findOpener] at h
    split at h
    · split at h
      · cases h; omega
      · have := findOpener_lt h; omega
    · cases h

theorem closeSpan_measure {ds ds' : List Delim} {j pos j' : Nat} {s l r s' l' r' : Bool}
    {t t' : List Byte} (hj : ds[j]? = some (.run s' l' r' t')) (hp : ds[pos]? = some (.run s l r t))
    (h : j < pos) (hc : closeSpan ds j pos (.run s' l' r' t') (.run s l r t) = some (ds', j')) :
    runBytes ds' + (ds'.length - (j' + 1)) < runBytes ds + (ds.length - pos) := by
  obtain ⟨a, b, c, rfl, rfl, rfl⟩ := split_two hj hp h
  rw [closeSpan_eq] at hc
  dsimp only at hc
  split at hc
  · cases hc
  · rename_i hn
    simp only [Option.some.injEq, Prod.mk.injEq] at hc
    obtain ⟨rfl, rfl⟩ := hc
    have hk : ∀ d, runBytes (keep d) ≤ runBytes [d] := by
      intro d; unfold keep; split
      · simp [runBytes]
      · exact Nat.le_refl _
    have hl : ∀ d, (keep d).length ≤ 1 := by intro d; unfold keep; split <;> simp
    simp only [Delim.text] at hn ⊢
    generalize hx : Delim.shorten (min (min t'.length t.length) 2) (.run s' l' r' t') = x
    generalize hy : Delim.shorten (min (min t'.length t.length) 2) (.run s l r t) = y
    have hx' : runBytes [x] + 1 ≤ t'.length := by
      rw [← hx]; simp only [Delim.shorten, runBytes, List.length_take]; omega
    have hy' : runBytes [y] + 1 ≤ t.length := by
      rw [← hy]; simp only [Delim.shorten, runBytes, List.length_take]; omega
    have h1 := hk x
    have h2 := hk y
    have h3 := hl x
    have h4 := hl y
    simp only [runBytes_append, runBytes, List.length_append, List.length_cons, List.length_nil]
    omega

/-- The loop of `processEmphasis`, md/ParseMarkdown.cpp:611-653, with `starOpener` and
`underscoreOpener`.  Positions count from `bottomPos`.  Line 640 takes the minimum with
`starOpener`. -/
def processLoop (ds : List Delim) (pos starOpener underscoreOpener : Nat) : Option (List Delim) :=
  match hp : ds[pos]? with
  | none => some ds
  | some (.run star left true t) =>
    match hj : findOpener ds star (if star then starOpener else underscoreOpener) pos with
    | some j =>
      match hd : ds[j]? with
      | some (.run star' left' right' t') =>
        match hc : closeSpan ds j pos (.run star' left' right' t') (.run star left true t) with
        | none => none
        | some (ds', j') =>
          processLoop ds' (j' + 1) (min starOpener (j' + 1))
            (min (min starOpener (j' + 1)) (j' + 1))
      | _ => none
    | none =>
      processLoop ds (pos + 1) (if star then pos + 1 else starOpener)
        (if star then underscoreOpener else pos + 1)
  | some _ => processLoop ds (pos + 1) starOpener underscoreOpener
  termination_by runBytes ds + (ds.length - pos)
  decreasing_by
    · exact closeSpan_measure hd hp (findOpener_lt hj) hc
    · have := (List.getElem?_eq_some_iff.mp hp).1; omega
    · have := (List.getElem?_eq_some_iff.mp hp).1; omega

/-- `processEmphasis`, md/ParseMarkdown.cpp:610-657, on the delimiters from `bottomPos` on. -/
def processEmphasis (ds : List Delim) : Option (List Inline) :=
  (processLoop ds 0 0 0).map convertToInlineElems

/-- `flushText`, md/ParseMarkdown.cpp:663-669: `pending` are the characters between `flushedIndex`
and `ic.i`. -/
def flush (ds : List Delim) (pending : List Byte) : List Delim :=
  if pending = [] then ds else ds ++ [.raw pending]

/-- `rfind(delimiters, …)`, md/ParseMarkdown.cpp:735-737 and rt/algorithm/Find.h:46-53: the last
opening bracket.  On an empty array `safeDemote` of the wrapped size fails its assertion. -/
def rfindOpen : List Delim → Option (Option Nat)
  | [] => none
  | ds => some (lastOpen ds)
where
  /-- The loop of rt/algorithm/Find.h:47-52. -/
  lastOpen : List Delim → Option Nat
    | [] => none
    | d :: ds =>
      match lastOpen ds with
      | some i => some (i + 1)
      | none => match d with
        | .openLink _ => some 0
        | _ => none

theorem getCodeSpan_len {n : Nat} {acc : List Byte} {s : List Sym} {r : List Byte} {u : List Sym}
    (h : getCodeSpan n acc s = .ok r u) : u.length < s.length := by
  fun_induction getCodeSpan n acc s <;> grind [validIndex_len]

theorem skipLeading_len {s : List Sym} {u : List Sym} {x : Unit} (h : skipLeading s = .ok x u) :
    u.length ≤ s.length := by
  fun_induction skipLeading s <;> grind [validIndex_len]

theorem destLoop_len {n : Nat} {acc : List Byte} {s : List Sym} {r : List Byte × Nat} {u : List Sym}
    (h : destLoop n acc s = .ok r u) : u.length ≤ s.length := by
  fun_induction destLoop n acc s <;> grind

theorem skipTrailing_len {s : List Sym} {u : List Sym} {x : Unit} (h : skipTrailing s = .ok x u) :
    u.length < s.length := by
  fun_induction skipTrailing s <;> grind [validIndex_len]

theorem parseLink_len {s : List Sym} {d : List Byte} {u : List Sym}
    (h : parseLinkDestination s = .ok d u) : u.length < s.length := by
  unfold parseLinkDestination at h
  split at h <;> try cases h
  rename_i h1
  split at h <;> try cases h
  rename_i h2
  split at h <;> try cases h
  split at h <;> try cases h
  rename_i h3
  have := skipLeading_len h1
  have := destLoop_len h2
  have := skipTrailing_len h3
  omega

/-- The loop of `expandInlineElements`, md/ParseMarkdown.cpp:670-761: the delimiters so far, the
characters not flushed yet, the character before the current position on the same line, and the
text still to be read. -/
def expandLoop (ds : List Delim) (pending : List Byte) (prev : Option Byte) (s : List Sym) :
    Option (List Delim) :=
  match s with
  | [] => some (flush ds pending)
  | none :: some c :: t => expandLoop (flush ds pending ++ [.elem .soft]) [] none (some c :: t)
  | none :: _ => none
  | some c :: t =>
    if c = 96 then
      let k := runLen 96 t + 1
      let t' := t.drop (runLen 96 t)
      have ht : t'.length ≤ t.length := by simp [t']
      match hg : getCodeSpan k [] t' with
      | .fail => none
      | .ok code u =>
        have := getCodeSpan_len hg
        if code ≠ [] then expandLoop (flush ds pending ++ [.elem (.code code)]) [] (some 96) u
        else expandLoop (flush (flush ds pending) (List.replicate k 96)) [] (some 96) t'
      | .no => expandLoop (flush (flush ds pending) (List.replicate k 96)) [] (some 96) t'
    else if c = 42 then
      let k := runLen 42 t + 1
      let t' := t.drop (runLen 42 t)
      have ht : t'.length ≤ t.length := by simp [t']
      expandLoop (flush ds pending ++ [makeRun true prev t'.head?.join (List.replicate k 42)]) []
        (some 42) t'
    else if c = 95 then
      let k := runLen 95 t + 1
      let t' := t.drop (runLen 95 t)
      have ht : t'.length ≤ t.length := by simp [t']
      expandLoop (flush ds pending ++ [makeRun false prev t'.head?.join (List.replicate k 95)]) []
        (some 95) t'
    else if c = 91 then expandLoop (flush ds pending ++ [.openLink [91]]) [] (some 91) t
    else if c = 93 then
      if t.head? = some (some 40) then
        let t' := t.tail
        have ht : t'.length ≤ t.length := by simp [t']
        match rfindOpen (flush ds pending) with
        | none => none
        | some none => expandLoop (flush ds pending) [93, 40] (some 40) t'
        | some (some i) =>
          match hl : parseLinkDestination t' with
          | .fail => none
          | .no => expandLoop (flush ds pending) [93, 40] (some 40) t'
          | .ok dest u =>
            have := parseLink_len hl
            match processEmphasis ((flush ds pending).drop (i + 1)) with
            | none => none
            | some cs =>
              expandLoop ((flush ds pending).take i ++ [.elem (.link dest cs)]) [] (some 41) u
      else expandLoop (flush ds pending) [93] (some 93) t
    else expandLoop ds (pending ++ [c]) (some c) t
  termination_by s.length

/-- `expandInlineElements`, md/ParseMarkdown.cpp:659-764.  Lines 416 and 418 assert that there is a
line and that the first one is not empty. -/
def expandInlineElements (lines : List (List Byte)) : Option (List Inline) :=
  match lines with
  | [] => none
  | [] :: _ => none
  | lines =>
    match expandLoop [] [] none (symsOf lines) with
    | none => none
    | some ds => processEmphasis ds

end Verif.Markdown

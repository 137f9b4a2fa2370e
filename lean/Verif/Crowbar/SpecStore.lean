import Verif.Crowbar.ModelStore

/-!
# The token store — specification
-/

namespace Verif.Crowbar
open Verif

/-- What a parser asks of its tokenizer: the next token, in one of the tokenizer's modes, or to have the token
read last once more. -/
inductive Ask
  | read (nl inStr : Bool)
  | again

/-- A token that is not kept for reading again: the end of the file and the parts of strings. -/
def Passing (ty : TokTy) : Prop :=
  ty = .endOfFile ∨ ty = .stringLiteral ∨ ty = .beginStringEmbed ∨ ty = .endString

instance (ty : TokTy) : Decidable (Passing ty) := by unfold Passing; infer_instance

/-- The tokenizer as the parser thinks of it: the rest of the source and a token put back. -/
structure Plain where
  total : Nat
  src : List Byte
  back : Option Tok

/-- The next token of the plain tokenizer: the token put back, or else one from the source.  `none` when the
source ends within a string. -/
def Plain.fresh (p : Plain) (nl inStr : Bool) : Option (Tok × Plain) :=
  if inStr = true ∧ p.src ≠ [] then
    match readStr [] p.src with
    | none => none
    | some (ty, text, rest) => some (⟨ty, p.total - p.src.length, text⟩, { p with src := rest, back := none })
  else some ((lex p.total nl p.src).1, { p with src := (lex p.total nl p.src).2, back := none })

/-- The next token of the plain tokenizer. -/
def Plain.read (p : Plain) (nl inStr : Bool) : Option (Tok × Plain) :=
  match p.back with
  | some t => if t.ty = .newLine ∧ nl = false then p.fresh nl inStr else some (t, { p with back := none })
  | none => p.fresh nl inStr

/-- Everything asked of the plain tokenizer, with the tokens given. -/
def Plain.run : List Ask → Plain → Option Tok → Option (List Tok)
  | [], _, _ => some []
  | .read nl inStr :: as, p, _ =>
    match p.read nl inStr with
    | none => none
    | some (t, p') => (Plain.run as p' (some t)).map (t :: ·)
  | .again :: as, p, last =>
    match last with
    | none => Plain.run as p last
    | some t => if Passing t.ty then Plain.run as p last else Plain.run as { p with back := some t } last

/-- Everything asked of the tokenizer with its store, with the tokens given: `again` is `rewindTo` the index of
the token given last. -/
def Store.run : List Ask → Store → Option XTok → Option (List XTok × Store)
  | [], st, _ => some ([], st)
  | .read nl inStr :: as, st, _ =>
    match readTok st nl inStr with
    | none => none
    | some (t, st') => (Store.run as st' (some t)).map fun r => (t :: r.1, r.2)
  | .again :: as, st, last =>
    match last with
    | none => Store.run as st last
    | some t =>
      match rewindTo st t.idx with
      | none => none
      | some st' => Store.run as st' last

/-- `Same x t`: the token of the store is the plain one; the end of the file and the ends of string parts have no
text that counts. -/
def Same (x : XTok) (t : Tok) : Prop :=
  x.ty = t.ty ∧ x.off = t.off ∧ (x.ty ≠ .endOfFile ∧ x.ty ≠ .beginStringEmbed ∧ x.ty ≠ .endString → x.text = t.text)

/-- Token by token the same. -/
def AllSame : List XTok → List Tok → Prop
  | [], [] => True
  | x :: xs, t :: ts => Same x t ∧ AllSame xs ts
  | _, _ => False

end Verif.Crowbar

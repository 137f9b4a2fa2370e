import Verif.CppParse.ModelGo
/-!
# The parser for C++ — specification: tokens are taken in order

What a run of a parsing function may do to the state of the parser, without regard to what it parses.
-/
namespace Verif.CppParse
open Verif Verif.Cpp

/-- A token the parser sees. -/
def visible (t : Token) : Bool := !skipped t.type

/-- A source gives tokens that the parser sees, together with some that it does not see. -/
class Lawful (σ : Type) [Source σ] : Prop where
  next_visible : ∀ {a : Bool} {s s' : σ} {cs : List Token} {t : Token},
    Source.next a s = some (cs, t, s') → visible t = true ∧ ∀ c ∈ cs, visible c = false

/-- The source gives the tokens `e` and is `s'` afterwards. -/
inductive Supply {σ : Type} [Source σ] : σ → List Token → σ → Prop where
  | nil (s : σ) : Supply s [] s
  | cons {a : Bool} {s s' s'' : σ} {cs e : List Token} {t : Token} (h : Source.next a s = some (cs, t, s'))
      (r : Supply s' e s'') : Supply s (t :: e) s''

/-- The tokens that were taken from the source and are still to be read. -/
def pending {σ : Type} (p : P σ) : List Token := (p.queue.drop p.pos).filter visible

/-- The state between two calls: without a restore point, the queue is read from its start. -/
structure Between {σ : Type} (p : P σ) : Prop where
  start : p.restore = false → p.pos = 0
  bound : p.pos ≤ p.queue.length

/-- What stays as it is, and what only grows. -/
structure Frame {σ : Type} (p q : P σ) : Prop where
  between : Between q
  restore : q.restore = p.restore
  accept : q.accept = p.accept
  angles : q.angles = p.angles
  raw : p.raw ≤ q.raw
  errs : p.errs <+: q.errs
  seen : p.seen <+: q.seen
  noErr : q.raw = p.raw → q.errs = p.errs
  quiet : p.restore = true → q.errs = p.errs

/-- Errors that are found are reported. -/
def Reports {σ : Type} (p q : P σ) : Prop :=
  p.mute = false →
    (p.restore = true → q.mute = false) ∧
    (p.restore = false →
      (q.raw = p.raw ∧ q.errs = p.errs ∧ q.mute = false) ∨ p.errs.length < q.errs.length)

/-- The word `operator`. -/
def operatorWord : List Byte := bs ['o', 'p', 'e', 'r', 'a', 't', 'o', 'r']

/-- From `p` to `q` the parser has taken `e` from the source and consumed `w`.  With a restore point, what was
taken is kept behind what was there.  `ρ` = errors that are found are reported, unless the word `operator`
occurs. -/
def Moves {σ : Type} [Source σ] (ρ : Prop) (e w : List Token) (p q : P σ) : Prop :=
  Supply p.src e q.src ∧ pending p ++ e = w ++ pending q ∧ Frame p q ∧
  (p.restore = true → ∃ x, q.queue = p.queue ++ x ∧ x.filter visible = e ∧ p.pos ≤ q.pos) ∧
  (ρ → (∀ t ∈ pending p ++ e, t.text ≠ operatorWord) → Reports p q)

/-- The parser has gone forward from `p` to `q`. -/
def Adv {σ : Type} [Source σ] (ρ : Prop) (p q : P σ) : Prop := ∃ e w, Moves ρ e w p q

end Verif.CppParse

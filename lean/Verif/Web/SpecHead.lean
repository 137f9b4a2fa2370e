import Verif.Web.Model
import Verif.Web.Spec
/-!
# What happens on a connection

Only the types of `Verif.Web.Model` (requests, events) are used here, none of its functions.
-/
namespace Verif.Web.Spec
open Verif

/-- A line of a head. -/
def HeadLine (l : List Byte) : Prop := IsLine l ∧ ¬ Blank l

/-- The blank line `b` ending a head, followed by `rest`; the last line of the input may lack its line
feed. -/
def BlankLine (b rest : List Byte) : Prop :=
  Blank b ∧ (IsLine b ∨ (b ≠ [] ∧ 10 ∉ b ∧ rest = []))

/-- These lines are a request. -/
def Parsed (line : List Byte) (ls : List (List Byte)) (req : Request) : Prop :=
  StartLine line req.method req.uri req.httpVersion ∧ Fields ls req.headerFields

/-- "HTTP/1.1". -/
def KeepAlive (req : Request) : Prop := req.httpVersion = [72, 84, 84, 80, 47, 49, 46, 49]

instance (req : Request) : Decidable (KeepAlive req) := by unfold KeepAlive; infer_instance

/-- The error page sent when a handler did nothing. -/
def missing (handler : Request → State) (req : Request) : List Event :=
  if handler req = .noResponse then [.generic .internalError (decide (KeepAlive req))] else []

/-- What happens on a connection whose whole input is given. -/
inductive Conversation (handler : Request → State) : List Byte → List Event → Prop where
  | closed : Conversation handler [] []
  | blank {b rest} : BlankLine b rest → Conversation handler (b ++ rest) []
  | truncated {ls t} : (∀ l ∈ ls, HeadLine l) → 10 ∉ t → (t = [] ∨ ¬ Blank t) → (ls ≠ [] ∨ t ≠ []) →
      Conversation handler (ls.flatten ++ t) [.generic .badRequest false]
  | illFormed {line ls b rest} : (∀ l ∈ line :: ls, HeadLine l) → BlankLine b rest →
      (∀ req, ¬ Parsed line ls req) →
      Conversation handler ((line :: ls).flatten ++ (b ++ rest)) [.generic .badRequest false]
  | last {line ls b rest req} : (∀ l ∈ line :: ls, HeadLine l) → BlankLine b rest →
      Parsed line ls req → ¬ (KeepAlive req ∧ handler req ≠ .beganResponse) →
      Conversation handler ((line :: ls).flatten ++ (b ++ rest)) (.handled req :: missing handler req)
  | more {line ls b rest req evs} : (∀ l ∈ line :: ls, HeadLine l) → BlankLine b rest →
      Parsed line ls req → KeepAlive req → handler req ≠ .beganResponse →
      Conversation handler rest evs →
      Conversation handler ((line :: ls).flatten ++ (b ++ rest))
        (.handled req :: (missing handler req ++ evs))

/-- The status number and its text. -/
def status : Code → List Byte × List Byte
  | .ok => (lit "200", lit "OK")
  | .badRequest => (lit "400", lit "Bad Request")
  | .notFound => (lit "404", lit "Not Found")
  | .internalError => (lit "500", lit "Internal Server Error")
  | .unknown => (lit "500", lit "Internal Server Error")

/-- The page showing a status. -/
def page (code : Code) : List Byte :=
  lit "<html>\n<head><title>" ++ (status code).1 ++ [32] ++ (status code).2 ++
    lit "</title></head>\n<body>\n<center><h1>" ++ (status code).1 ++ [32] ++ (status code).2 ++
    lit "</h1></center>\n<hr>\n</body>\n</html>\n"

end Verif.Web.Spec

import Verif.Reg.Model
/-!
# Commands in module definition files — specification
-/
namespace Verif.Reg.Spec
open Verif

/-- White space. -/
def Blank (s : List Byte) : Prop := ∀ c ∈ s, c = 32 ∨ c = 9 ∨ c = 13 ∨ c = 10

/-- A name that can be in quotes as it is. -/
def Plain (s : List Byte) : Prop := s ≠ [] ∧ ∀ c ∈ s, c ≠ 34 ∧ c ≠ 92 ∧ c ≠ 13 ∧ c ≠ 10

/-- `="name"` with white space anywhere. -/
def Quoted (name : List Byte) (s : List Byte) : Prop :=
  ∃ a b c, Blank a ∧ Blank b ∧ Blank c ∧ s = a ++ 61 :: (b ++ 34 :: (name ++ 34 :: c))

/-- Text of commands, after the two slashes: `[ply module="name"]` and `[ply extern="name" provider="name"]`. -/
inductive Written : Cmd → List Byte → Prop
  | module {name a b q c : List Byte} (h : Plain name) (ha : Blank a) (hb : Blank b) (hb' : b ≠ []) (hc : Blank c)
    (hq : Quoted name q) : Written (.module name)
      (a ++ ([91, 112, 108, 121] ++ (b ++ ([109, 111, 100, 117, 108, 101] ++ (q ++ ([93] ++ c))))))
  | external {name provider a b q d r c : List Byte} (h : Plain name) (h' : Plain provider) (ha : Blank a) (hb : Blank b)
    (hb' : b ≠ []) (hc : Blank c) (hq : Quoted name q) (hd : Blank d) (hr : Quoted provider r) :
      Written (.external name provider)
      (a ++ ([91, 112, 108, 121] ++ (b ++ ([101, 120, 116, 101, 114, 110] ++ (q ++ (d ++
        ([112, 114, 111, 118, 105, 100, 101, 114] ++ (r ++ ([93] ++ c)))))))))

/-- A piece of a file that is meant to work: a command, with other comments after it, and the function after that; or
something without a command. -/
inductive Piece where
  | annotated (cmd : Cmd) (text : List Byte) (others : List (Bool × List Byte)) (function : List Byte)
  | comment (scope : Bool) (text : List Byte)
  | decl (function : Option (List Byte))

/-- What the parser tells about a piece. -/
def Piece.events : Piece → List Event
  | .annotated _ text others f =>
    .comment true true text :: (others.map (fun o => Event.comment true o.1 o.2) ++ [.decl (some f)])
  | .comment scope text => [.comment true scope text]
  | .decl f => [.decl f]

/-- Comments that are no commands: they neither begin with a bracket nor with the word `ply`. -/
def Remark (text : List Byte) : Prop :=
  ∃ a c r, Blank a ∧ text = a ++ c :: r ∧ ¬ Blank [c] ∧ c ≠ 91 ∧ c ≠ 112

/-- Pieces are as described. -/
def Piece.Ok : Piece → Prop
  | .annotated cmd text others _ => Written cmd text ∧ ∀ o ∈ others, Remark o.2
  | .comment _ text => Remark text
  | .decl _ => True

/-- What is to be found in a piece. -/
def Piece.found : Piece → List (Cmd × List Byte)
  | .annotated cmd _ _ f => [(cmd, f)]
  | _ => []

/-- Commands that name something. -/
def Named : Cmd → Prop
  | .module name => name ≠ []
  | .external name provider => name ≠ [] ∧ provider ≠ []

/-- The commands that are accepted. -/
def accepted : List Event → Nat
  | [] => 0
  | .comment true fileScope text :: es =>
    (match meaning fileScope text with
      | .ply (.ok _) => 1
      | _ => 0) + accepted es
  | _ :: es => accepted es

end Verif.Reg.Spec

import Verif.Pylon.Props

/-!
# Pylon — unquoted words
-/

namespace Verif.Pylon
open Verif

/-- A byte of an unquoted word: a letter, a digit, one of `_ $ - .`, or a byte of a character beyond ASCII. -/
def WordByte (b : Byte) : Prop :=
  (97 ≤ b.toNat ∧ b.toNat ≤ 122) ∨ (65 ≤ b.toNat ∧ b.toNat ≤ 90) ∨ (48 ≤ b.toNat ∧ b.toNat ≤ 57) ∨
    b.toNat = 95 ∨ b.toNat = 36 ∨ b.toNat = 45 ∨ b.toNat = 46 ∨ 128 ≤ b.toNat

instance (b : Byte) : Decidable (WordByte b) := by unfold WordByte; infer_instance

theorem readLiteral_word (w : List Byte) (h : ∀ b ∈ w, WordByte b) (acc t : List Byte) :
    readLiteral acc (w ++ 10 :: t) = .ok (.text (acc ++ w)) (10 :: t) := by
  induction w generalizing acc with
  | nil => simp [readLiteral, isAlnum]
  | cons b w ih =>
    have hb : isAlnum b = true := by
      have := h b (List.mem_cons_self ..)
      unfold WordByte at this
      unfold isAlnum
      simp only [decide_eq_true_eq]
      omega
    rw [List.cons_append, readLiteral, if_pos hb, ih (fun c hc => h c (List.mem_cons_of_mem _ hc))]
    simp

/-- **C34**: a text of letters, digits, `_ $ - .` and characters beyond ASCII may be written without quotes. -/
theorem C34_words (w : List Byte) (hne : w ≠ []) (h : ∀ b ∈ w, WordByte b) (hff : 255 ∉ w.head?) :
    parse (w ++ [10]) = .tree (.text w) := by
  cases w with
  | nil => exact absurd rfl hne
  | cons b w =>
    have h1 : b ≠ 255 := fun e => hff (by simp [e])
    have hr : readToken false (b :: w ++ [10]) = readLiteral [] (b :: w ++ [10]) := by
      have hb := h b (List.mem_cons_self ..)
      have h2 : b ∉ ([32, 9, 13, 10, 123, 125, 91, 93, 58, 61, 44, 59, 34, 39] : List Byte) ∧ isAlnum b = true := by
        clear h h1 hne hff
        revert hb
        revert b
        apply forall_byte
        decide +kernel
      obtain ⟨h3, a12⟩ := h2
      simp only [List.mem_cons, List.not_mem_nil, or_false, not_or] at h3
      obtain ⟨b1, b2, b3, a2, a3, a4, a5, a6, a7, a8, a9, a10, b4, b5⟩ := h3
      have a1 : ¬(b = 32 ∨ b = 9 ∨ b = 13) := by rintro (e | e | e) <;> contradiction
      have a11 : ¬(b = 34 ∨ b = 39) := by rintro (e | e) <;> contradiction
      rw [List.cons_append, readToken, if_neg a1, if_neg a2, if_neg h1, if_neg a3, if_neg a4, if_neg a5, if_neg a6,
        if_neg a7, if_neg a8, if_neg a9, if_neg a10, if_neg a11, if_pos a12]
    unfold parse
    rw [hr, readLiteral_word _ h [] []]
    simp [readExpression, readToken]

/-- Whether a result is a given text. -/
def Parsed.isText (t : List Byte) : Parsed → Bool
  | .tree (.text s) => s == t
  | _ => false

/-- **C34**: of single bytes these are the only ones that stand for themselves; FF is taken for the end. -/
theorem C34_words_exact (b : Byte) : parse [b, 10] = .tree (.text [b]) ↔ WordByte b ∧ b ≠ 255 := by
  constructor
  · intro h
    have : (parse [b, 10]).isText [b] = true := by rw [h]; simp [Parsed.isText]
    clear h
    revert this
    revert b
    apply forall_byte
    decide +kernel
  · intro ⟨h1, h2⟩
    exact C34_words [b] (by simp) (by simpa using h1) (by simpa using h2)

example : parse [45, 57, 46, 97, 195, 169, 10] = .tree (.text [45, 57, 46, 97, 195, 169]) :=
  C34_words [45, 57, 46, 97, 195, 169] (by simp) (by decide) (by decide)

end Verif.Pylon

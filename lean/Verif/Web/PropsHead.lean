import Verif.Web.Lemmas
import Verif.Esc.Props
/-!
# C47: request heads
-/
namespace Verif.Web
open Verif Spec

theorem http11_iff (req : Request) : (req.httpVersion == http11) = decide (KeepAlive req) := by
  by_cases h : KeepAlive req
  · rw [decide_eq_true h]; unfold KeepAlive at h; rw [h]; rfl
  · rw [decide_eq_false h]; exact beq_false_of_ne h

theorem headLines_ne {line : List Byte} {ls : List (List Byte)} (h : ∀ l ∈ line :: ls, HeadLine l) :
    ∀ l ∈ ls, l ≠ [] := fun l hl => (h l (by simp [hl])).1.ne

/-- One round of the outer loop. -/
theorem serve_head (handler : Request → State) (fuel : Nat) {line : List Byte} {ls : List (List Byte)}
    {b rest : List Byte} (h : ∀ l ∈ line :: ls, HeadLine l) (hb : BlankLine b rest) :
    (∀ req, Parsed line ls req →
      serve handler (fuel + 1) ((line :: ls).flatten ++ (b ++ rest)) =
        .handled req :: (missing handler req ++
          if KeepAlive req ∧ handler req ≠ .beganResponse then serve handler fuel rest else [])) ∧
    ((∀ req, ¬ Parsed line ls req) →
      serve handler (fuel + 1) ((line :: ls).flatten ++ (b ++ rest)) =
        [.generic .badRequest false]) := by
  have hne := headLines_ne h
  constructor
  · intro req hp
    rw [serve, readHead_all h hb]
    dsimp only
    rw [(parseHead_iff line ls hne req).mpr hp]
    dsimp only
    rw [http11_iff]
    unfold missing
    by_cases hk : KeepAlive req
    · cases hh : handler req <;> simp [hk]
    · cases hh : handler req <;> simp [hk]
  · intro hp
    rw [serve, readHead_all h hb]
    dsimp only
    cases hq : parseHead line ls with
    | none => rfl
    | some req => exact absurd ((parseHead_iff line ls hne req).mp hq) (hp req)

theorem serve_sound (handler : Request → State) (fuel : Nat) (input : List Byte)
    (hf : input.length < fuel) : Conversation handler input (serve handler fuel input) := by
  induction fuel generalizing input with
  | zero => omega
  | succ fuel ih =>
    rcases head_cases input.length input (Nat.le_refl _) with ⟨ls, t, h1, h2, h3, rfl⟩ |
      ⟨ls, b, rest, h1, h2, rfl⟩
    · rw [serve, readHead_trunc h1 h2 h3]
      by_cases ht : t = []
      · subst ht
        rw [if_pos rfl]
        cases ls with
        | nil => exact .closed
        | cons l ls =>
          exact .truncated h1 h2 h3 (Or.inl (by simp))
      · rw [if_neg ht]
        have hc := Conversation.truncated (handler := handler) h1 h2 h3 (Or.inr ht)
        cases ls with
        | nil => exact hc
        | cons l ls => exact hc
    · cases ls with
      | nil =>
        rw [serve, readHead_all h1 h2]
        exact Conversation.blank (b := b) (rest := rest) h2
      | cons line ls =>
        obtain ⟨g1, g2⟩ := serve_head handler fuel h1 h2
        by_cases hp : ∃ req, Parsed line ls req
        · obtain ⟨req, hp⟩ := hp
          rw [g1 req hp]
          by_cases hk : KeepAlive req ∧ handler req ≠ .beganResponse
          · rw [if_pos hk]
            refine .more h1 h2 hp hk.1 hk.2 (ih rest ?_)
            have := List.length_pos_iff.mpr (h1 line (by simp)).1.ne
            simp only [List.flatten_cons, List.length_append] at hf
            omega
          · rw [if_neg hk, List.append_nil]
            exact .last h1 h2 hp hk
        · have hp' : ∀ req, ¬ Parsed line ls req := fun req hr => hp ⟨req, hr⟩
          rw [g2 hp']
          exact .illFormed h1 h2 hp'

theorem serve_complete (handler : Request → State) (input : List Byte) (evs : List Event)
    (h : Conversation handler input evs) :
    ∀ fuel, input.length < fuel → serve handler fuel input = evs := by
  induction h with
  | closed =>
    intro fuel hf
    cases fuel with
    | zero => simp at hf
    | succ fuel => rfl
  | @blank b rest hb =>
    intro fuel hf
    cases fuel with
    | zero => simp at hf
    | succ fuel =>
      have := readHead_all (ls := []) (by simp) hb
      rw [List.flatten_nil, List.nil_append] at this
      rw [serve, this]
  | @truncated ls t h1 h2 h3 h4 =>
    intro fuel hf
    cases fuel with
    | zero => simp at hf
    | succ fuel =>
      rw [serve, readHead_trunc h1 h2 h3]
      cases ls with
      | cons l ls => rfl
      | nil => rw [if_neg (by simpa using h4)]; rfl
  | illFormed h1 h2 h3 =>
    intro fuel hf
    cases fuel with
    | zero => simp at hf
    | succ fuel => exact (serve_head handler fuel h1 h2).2 h3
  | last h1 h2 h3 h4 =>
    intro fuel hf
    cases fuel with
    | zero => simp at hf
    | succ fuel =>
      rw [(serve_head handler fuel h1 h2).1 _ h3, if_neg h4, List.append_nil]
  | @more line ls b rest req evs h1 h2 h3 h4 h5 h6 ih =>
    intro fuel hf
    cases fuel with
    | zero => simp at hf
    | succ fuel =>
      rw [(serve_head handler fuel h1 h2).1 _ h3, if_pos ⟨h4, h5⟩, ih fuel]
      have := List.length_pos_iff.mpr (h1 line (by simp)).1.ne
      simp only [List.flatten_cons, List.length_append] at hf
      omega

/-- **C47**: for every input and every handler, what happens on a connection is exactly what
`Conversation` describes: heads are the non-blank lines before a blank one; a head is handed to the
handler exactly if its first line is three words and every further line is folded or a name and a
value around its first colon, and the handler gets exactly these words, names and values; every
other head, and a head cut short, is answered by `400 Bad Request` and the connection is closed; a
handler that does nothing is answered for by `500 Internal Server Error`; and the next head is read
exactly if the version is `HTTP/1.1` and the response is complete.

Missing: `readString` is taken to return the text it consumed.  At this commit it crashes on every
non-empty line instead (`Verif.Stream.C52_capture_crashes`). -/
theorem C47_conversation_partial (handler : Request → State) (input : List Byte) (evs : List Event) :
    connection handler input = evs ↔ Conversation handler input evs := by
  constructor
  · rintro rfl
    exact serve_sound handler _ input (by omega)
  · intro h
    exact serve_complete handler input evs h _ (by omega)

/-- Two requests on one connection, the second with a folded line, then the end of the input. -/
example : connection (fun _ => .endedHeader)
    (lit "GET / HTTP/1.1\r\nHost :  a b \r\n\r\nPUT /x HTTP/1.1\n folded\nK:v:w\n\n") =
    [.handled ⟨lit "GET", lit "/", lit "HTTP/1.1", [(lit "Host", lit "a b")]⟩,
     .handled ⟨lit "PUT", lit "/x", lit "HTTP/1.1", [(lit "K", lit "v:w")]⟩] := by decide +kernel

/-- An old client: the connection is closed after the response; and heads that are no requests. -/
example :
    connection (fun _ => .noResponse) (lit "GET / HTTP/1.0\n\nGET / HTTP/1.0\n\n") =
      [.handled ⟨lit "GET", lit "/", lit "HTTP/1.0", []⟩, .generic .internalError false] ∧
    connection (fun _ => .endedHeader) (lit "GET /\n\n") = [.generic .badRequest false] ∧
    connection (fun _ => .endedHeader) (lit "GET / HTTP/1.1\nnocolon\n\n") =
      [.generic .badRequest false] ∧
    connection (fun _ => .endedHeader) (lit "GET / HTTP/1.1\nA:b") = [.generic .badRequest false] ∧
    connection (fun _ => .endedHeader) (lit "\r\nGET / HTTP/1.1\n\n") = [] := by decide +kernel

/-- An accepted head determines the request: no two readings of the same lines. -/
theorem C47_unique (line : List Byte) (ls : List (List Byte)) (h : ∀ l ∈ line :: ls, HeadLine l)
    (r s : Request) (hr : Parsed line ls r) (hs : Parsed line ls s) : r = s := by
  have h1 := (parseHead_iff line ls (headLines_ne h) r).mpr hr
  have h2 := (parseHead_iff line ls (headLines_ne h) s).mpr hs
  rw [h1] at h2
  exact Option.some.inj h2

example : Parsed (lit "GET /a HTTP/1.1\r\n") [lit "A: b\r\n"]
    ⟨lit "GET", lit "/a", lit "HTTP/1.1", [(lit "A", lit "b")]⟩ :=
  (parseHead_iff _ _ (by decide) _).mp (by decide +kernel)

/-- The server's own pages: a status line with the code, header lines, an empty line, and the page; in
a chunked response the receiver gets exactly the page out of the chunks, and what follows them is the
next response. -/
theorem C47_error_page (code : Code) (chunked : Bool) :
    ∃ body, respondGeneric code chunked = some
      (lit "HTTP/1.1 " ++ (status code).1 ++ [32] ++ (status code).2 ++ [13, 10] ++
        (if chunked then lit "Transfer-Encoding: chunked\r\nConnection: keep-alive\r\n" else []) ++
        lit "Content-Type: text/html\r\n\r\n" ++ body) ∧
      (chunked = false → body = page code) ∧
      (chunked = true → ∀ rest, Esc.dechunk 2 (body ++ rest) = some (page code, rest)) := by
  cases chunked with
  | false =>
    refine ⟨page code, ?_, fun _ => rfl, by simp⟩
    cases code <;> decide +kernel
  | true =>
    have hp : page code ≠ [] := by cases code <;> decide +kernel
    have hl : (page code).length < 2 ^ 32 := by cases code <;> decide +kernel
    obtain ⟨wire, h1, h2⟩ := Esc.C13_chunked_roundtrip [page code] (by simpa using hp)
      (by simpa using hl) []
    refine ⟨wire, ?_, by simp, fun _ rest => ?_⟩
    · have hf : Esc.format (lit "<html>\n<head><title>{} {}</title></head>\n<body>\n<center><h1>{} {}</h1></center>\n<hr>\n</body>\n</html>\n")
          [(description code).1, (description code).2, (description code).1, (description code).2] =
          some (page code) := by cases code <;> decide +kernel
      have hs : Esc.format (lit "HTTP/1.1 {} {}\r\n") [(description code).1, (description code).2] =
          some (lit "HTTP/1.1 " ++ (status code).1 ++ [32] ++ (status code).2 ++ [13, 10]) := by
        cases code <;> decide +kernel
      unfold respondGeneric
      simp only [hf, hs, h1, ↓reduceIte]
    · obtain ⟨wire', g1, g2⟩ := Esc.C13_chunked_roundtrip [page code] (by simpa using hp)
        (by simpa using hl) rest
      rw [h1] at g1
      cases g1
      simpa using g2

example : respondGeneric .notFound false = some (lit
    "HTTP/1.1 404 Not Found\r\nContent-Type: text/html\r\n\r\n<html>\n<head><title>404 Not Found</title></head>\n<body>\n<center><h1>404 Not Found</h1></center>\n<hr>\n</body>\n</html>\n") := by
  decide +kernel

end Verif.Web

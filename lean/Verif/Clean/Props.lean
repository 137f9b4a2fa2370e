import Verif.Clean.LemmasLead
/-!
# Putting the header of the project on top of a source file — C87
-/
namespace Verif.Clean
open Verif Verif.Cpp

/-- A text as bytes. -/
def txt (s : String) : List Byte := s.toList.map fun c => UInt8.ofNat c.toNat

/-- What `checkFileHeader` finds, in terms of lines. -/
theorem check_eq {H src above line : List Byte} {t : Token} (hlen : src.length < 2 ^ 32) (ht : FirstOf src t)
    (hne : t.type ≠ .endOfFile) (hp : src.take t.loc.toNat = above ++ line)
    (hasc : ∀ b ∈ src.take t.loc.toNat, b.toNat < 0x80)
    (ha : above = [] ∨ above.getLast? = some 10) (hl : 10 ∉ line) {k r : List Byte} (hk : above = k ++ r)
    (hs : SolidLines k) (hr : r = [] ∨ StartsBlank r) : checkFileHeader H src = some (H ++ src.drop k.length) := by
  have hb := first_bounds ht hne
  have ho : t.loc.toNat < src.length := by omega
  have hloc := located hlen ho hasc
  rw [Int.toNat_of_nonneg hb.1, hp, lastLine_append ha hl] at hloc
  have hex : src.take (t.loc.toNat - line.length) = above := by
    have h1 := congrArg List.length hp
    rw [List.length_take, List.length_append] at h1
    have h2 : t.loc.toNat - line.length = above.length := by omega
    have h3 : src.take above.length = (src.take t.loc.toNat).take above.length := by
      rw [List.take_take, Nat.min_eq_left (by omega)]
    rw [h2, h3, hp, List.take_left]
  unfold checkFileHeader
  rw [(firstCode_iff src t).2 ht]
  dsimp only
  rw [if_neg hne, hloc]
  dsimp only
  rw [hex, hk, trimHeader_solid hs hr _ (by rw [List.length_append]; omega)]

/-- The file is rewritten exactly if there is some code in it. -/
theorem C87_succeeds {src : List Byte} (hp : Plain src) (H : List Byte) :
    (∃ out, checkFileHeader H src = some out) ↔ ∃ t, FirstOf src t ∧ t.type ≠ .endOfFile := by
  constructor
  · rintro ⟨out, h⟩
    unfold checkFileHeader at h
    cases hf : firstCode (src.length + 1) (PP.init [] src) with
    | none => rw [hf] at h; cases h
    | some t =>
      rw [hf] at h
      dsimp only at h
      refine ⟨t, (firstCode_iff src t).1 hf, fun hc => ?_⟩
      rw [if_pos hc] at h
      cases h
  · rintro ⟨t, h1, h2⟩
    obtain ⟨above, k1, k2, k3⟩ := lastLine_split (src.take t.loc.toNat)
    obtain ⟨k, r, k4, k5, k6⟩ := solid_split _ above (Nat.le_refl _) k2
    exact ⟨_, check_eq hp.1 h1 h2 k1 (hp.2 t h1) k2 k3 k4 k5 k6⟩

/-- **What is cut off.**  The new text is the header and what is left of the file.  Whole lines are cut off at
the top, none of which is blank; they end before the first token that is no comment; and they go up to the
first blank line, or to the line of that token. -/
theorem C87_cut {src : List Byte} (hp : Plain src) {H out : List Byte} (h : checkFileHeader H src = some out) :
    ∃ dropped rest t, src = dropped ++ rest ∧ out = H ++ rest ∧ SolidLines dropped ∧
      FirstOf src t ∧ t.type ≠ .endOfFile ∧ dropped.length ≤ t.loc.toNat ∧
      (StartsBlank rest ∨ 10 ∉ (src.take t.loc.toNat).drop dropped.length) := by
  obtain ⟨t, h1, h2⟩ := (C87_succeeds hp H).1 ⟨out, h⟩
  have hb := first_bounds h1 h2
  obtain ⟨above, k1, k2, k3⟩ := lastLine_split (src.take t.loc.toNat)
  obtain ⟨k, r, k4, k5, k6⟩ := solid_split _ above (Nat.le_refl _) k2
  have he := check_eq (H := H) hp.1 h1 h2 k1 (hp.2 t h1) k2 k3 k4 k5 k6
  rw [h] at he
  have hlen := congrArg List.length k1
  rw [List.length_take, List.length_append, k4, List.length_append] at hlen
  have hsrc : src = k ++ (r ++ (lastLine (src.take t.loc.toNat) ++ src.drop t.loc.toNat)) := by
    conv => lhs; rw [← List.take_append_drop t.loc.toNat src, k1, k4]
    simp only [List.append_assoc]
  have hdrop : src.drop k.length = r ++ (lastLine (src.take t.loc.toNat) ++ src.drop t.loc.toNat) := by
    conv => lhs; rw [hsrc]
    rw [List.drop_left]
  refine ⟨k, src.drop k.length, t, ?_, Option.some.inj he, k5, h1, h2, by omega, ?_⟩
  · rw [hdrop]; exact hsrc
  · rcases k6 with h6 | ⟨b, r', h6, h7, h8⟩
    · right
      have : (src.take t.loc.toNat).drop k.length = lastLine (src.take t.loc.toNat) := by
        conv => lhs; rw [k1, k4, h6, List.append_nil]
        rw [List.drop_left]
      rw [this]
      exact k3
    · left
      rw [hdrop, h6]
      exact ⟨b, r' ++ (lastLine (src.take t.loc.toNat) ++ src.drop t.loc.toNat), by simp, h7, h8⟩

/-- A blank line at the top holds no token. -/
theorem blank_first {b r : List Byte} (hb : Blank b) {t : Token} (h : FirstOf (b ++ 10 :: r) t)
    (hne : t.type ≠ .endOfFile) : (b ++ [10]).length ≤ t.loc.toNat := by
  have hl : ∀ b : List Byte, Blank b → Lead (b ++ [10]) := by
    intro b
    induction b with
    | nil => intro _; exact .blank (Or.inr (Or.inr (Or.inl rfl))) .nil
    | cons c cs ih =>
      intro hb
      exact .blank (hb c List.mem_cons_self) (ih fun x hx => hb x (List.mem_cons_of_mem _ hx))
  have hs := same_lines (rest := r) (hl b hb) (Or.inr (by rw [last_append _ (by simp)]; rfl))
  rw [show b ++ [10] ++ r = b ++ 10 :: r by simp] at hs
  obtain ⟨u, h1, h2⟩ := hs.first t h
  have h3 := h2.loc hne
  have h4 := first_bounds h1 (h2.type ▸ hne)
  simp only [List.length_append, List.length_cons, List.length_nil] at h3 ⊢
  omega

/-- **Replacing a header.**  If the file starts with whole lines of comments, none of them blank, and goes on
with a blank line or with the line the code starts in, then these lines are replaced by the header and
everything else stays. -/
theorem C87_replaces {hdr rest : List Byte} (h1 : Lead hdr) (h2 : SolidLines hdr) (h3 : Ready rest)
    (hp : Plain (hdr ++ rest)) (H : List Byte) : checkFileHeader H (hdr ++ rest) = some (H ++ rest) := by
  obtain ⟨u, k1, k2, k3⟩ := h3
  obtain ⟨t, k4, k5⟩ := (same_lines (rest := rest) h1 (solid_end h2)).first' u k1
  have ht : t.type ≠ .endOfFile := k5.type ▸ k2
  have hl := k5.loc ht
  have hb := first_bounds k1 k2
  have ho : t.loc.toNat = hdr.length + u.loc.toNat := by rw [List.length_append] at hl; omega
  have hpre : (hdr ++ rest).take t.loc.toNat = hdr ++ rest.take u.loc.toNat := by
    rw [ho, List.take_length_add_append]
  have key : ∃ above line, rest.take u.loc.toNat = above ++ line ∧ 10 ∉ line ∧ (above = [] ∨ StartsBlank above) ∧
      (above = [] ∨ above.getLast? = some 10) := by
    rcases k3 with ⟨b, r, e1, e2, e3⟩ | hn
    · have hf := blank_first (b := b) (r := r) e2 (by rw [← e1]; exact k1) k2
      have hsplit : rest.take u.loc.toNat = (b ++ [10]) ++ r.take (u.loc.toNat - (b ++ [10]).length) := by
        rw [e1, show b ++ 10 :: r = (b ++ [10]) ++ r by simp, List.take_append, List.take_of_length_le hf]
      obtain ⟨ab, m1, m2, m3⟩ := lastLine_split (r.take (u.loc.toNat - (b ++ [10]).length))
      refine ⟨b ++ 10 :: ab, _, ?_, m3, Or.inr ⟨b, ab, rfl, e2, e3⟩, Or.inr ?_⟩
      · rw [hsplit]
        conv => lhs; rw [m1]
        simp
      · rw [show b ++ 10 :: ab = (b ++ [10]) ++ ab by simp]
        rcases m2 with rfl | m2
        · rw [List.append_nil, last_append _ (by simp)]; rfl
        · rw [last_append _ (by rintro rfl; cases m2)]; exact m2
    · exact ⟨[], _, rfl, hn, Or.inl rfl, Or.inl rfl⟩
  obtain ⟨above, line, m1, m2, m3, m4⟩ := key
  have hres := check_eq (H := H) (above := hdr ++ above) (line := line) hp.1 k4 ht
    (by rw [hpre, m1, List.append_assoc]) (hp.2 t k4)
    (by
      rcases m4 with rfl | m4
      · rw [List.append_nil]; exact solid_end h2
      · right; rw [last_append _ (by rintro rfl; cases m4)]; exact m4)
    m2 rfl h2 m3
  rw [hres, List.drop_left]

/-- What is left after whole comments have been cut off starts with a blank line or with code. -/
theorem cut_ready {src : List Byte} (hp : Plain src) {H out : List Byte} (h : checkFileHeader H src = some out) :
    ∃ dropped rest, src = dropped ++ rest ∧ out = H ++ rest ∧ SolidLines dropped ∧ (Lead dropped → Ready rest) := by
  obtain ⟨dropped, rest, t, h1, h2, h3, h4, h5, h6, h7⟩ := C87_cut hp h
  refine ⟨dropped, rest, h1, h2, h3, fun hl => ?_⟩
  subst h1
  obtain ⟨u, k1, k2⟩ := (same_lines (rest := rest) hl (solid_end h3)).first t h4
  have hloc := k2.loc h5
  have hb := first_bounds k1 (k2.type ▸ h5)
  have ho : t.loc.toNat = dropped.length + u.loc.toNat := by rw [List.length_append] at hloc; omega
  refine ⟨u, k1, k2.type ▸ h5, ?_⟩
  rcases h7 with h7 | h7
  · exact Or.inl h7
  · right
    rwa [ho, List.take_length_add_append, List.drop_left] at h7

/-- **The code stays.**  If what is cut off is white space and whole comments, and so is the header, then the
code of the file is as before.  `C87_comment_cut` and `C87_line_shared` are files for which what is cut off is
something else. -/
theorem C87_code_partial {src : List Byte} (hp : Plain src) {H out : List Byte} (h : checkFileHeader H src = some out)
    (hH : Lead H) (hH' : H = [] ∨ H.getLast? = some 10)
    (hl : ∀ dropped rest, src = dropped ++ rest → out = H ++ rest → Lead dropped) (cs : List (TT × List Byte)) :
    CodeOf out cs ↔ CodeOf src cs := by
  obtain ⟨dropped, rest, h1, h2, h3, _⟩ := cut_ready hp h
  have hd := hl dropped rest h1 h2
  subst h1 h2
  exact ((same_lines hH hH').code cs).trans ((same_lines hd (solid_end h3)).code cs).symm

/-- **Once is enough.**  Cleaning up again changes nothing, under the same conditions. -/
theorem C87_idempotent_partial {src : List Byte} (hp : Plain src) {H out : List Byte}
    (h : checkFileHeader H src = some out) (hH : Lead H) (hH' : SolidLines H) (hasc : ∀ b ∈ H, b.toNat < 0x80)
    (hlen : out.length < 2 ^ 32)
    (hl : ∀ dropped rest, src = dropped ++ rest → out = H ++ rest → Lead dropped) :
    checkFileHeader H out = some out := by
  obtain ⟨dropped, rest, h1, h2, h3, h4⟩ := cut_ready hp h
  have hd := hl dropped rest h1 h2
  subst h1 h2
  refine C87_replaces hH hH' (h4 hd) ⟨hlen, ?_⟩ H
  intro t ht b hb
  obtain ⟨u, k1, k2⟩ := (same_lines (rest := rest) hH (solid_end hH')).first t ht
  obtain ⟨v, m1, m2⟩ := (same_lines (rest := rest) hd (solid_end h3)).first' u k1
  obtain ⟨w, n1, n2, n3⟩ := h4 hd
  have hw := first_unique k1 n1
  subst hw
  have b1 := first_bounds k1 n2
  have e1 := k2.loc (k2.type ▸ n2)
  have e2 := m2.loc (m2.type ▸ n2)
  rw [List.length_append] at e1 e2
  have o1 : t.loc.toNat = H.length + u.loc.toNat := by omega
  have o2 : v.loc.toNat = dropped.length + u.loc.toNat := by omega
  rw [o1, List.take_length_add_append] at hb
  rcases List.mem_append.1 hb with hb | hb
  · exact hasc b hb
  · refine hp.2 v m1 b ?_
    rw [o2, List.take_length_add_append]
    exact List.mem_append.2 (Or.inr hb)

/-- A comment without stars inside. -/
theorem calm_plain : ∀ {body : List Byte}, (∀ b ∈ body, b ≠ 42) → Calm body := by
  intro body
  induction body with
  | nil => intro _; exact .nil
  | cons c cs ih => exact fun h => .other (h c List.mem_cons_self) (ih fun x hx => h x (List.mem_cons_of_mem _ hx))

instance (l : List Byte) : Decidable (Blank l) := by unfold Blank; infer_instance

/-- The lines of the header. -/
def headerLines : List (List Byte) :=
  [txt "/*------------------------------------", txt "  ///\\  Plywood C++ Framework",
    txt "  \\\\\\/  https://plywood.arc80.com/", txt "------------------------------------*/"]

/-- The header of Plywood is one comment of four lines; so the two theorems above apply to it. -/
theorem C87_header : Lead plywoodHeader ∧ SolidLines plywoodHeader ∧ plywoodHeader.getLast? = some 10 ∧
    ∀ b ∈ plywoodHeader, b.toNat < 0x80 := by
  refine ⟨?_, ?_, by decide +kernel, by decide +kernel⟩
  · have h : plywoodHeader = 47 :: 42 :: ((plywoodHeader.drop 2).take (plywoodHeader.length - 5) ++ 42 :: 47 :: [10]) := by
      decide +kernel
    rw [h]
    exact .block (calm_plain (by decide +kernel)) (.blank (by decide) .nil)
  · have h : plywoodHeader = headerLines.getD 0 [] ++ 10 :: (headerLines.getD 1 [] ++ 10 ::
        (headerLines.getD 2 [] ++ 10 :: (headerLines.getD 3 [] ++ 10 :: []))) := by decide +kernel
    rw [h]
    exact .cons (by decide +kernel) (by decide +kernel) (.cons (by decide +kernel) (by decide +kernel)
      (.cons (by decide +kernel) (by decide +kernel) (.cons (by decide +kernel) (by decide +kernel) .nil)))

/-- A file with an old header is given the new one, and nothing else happens to it. -/
example : checkFileHeader (txt "/* New */\n") (txt "// Old\n// header\n\n#include <a>\nint x;\n") =
    some (txt "/* New */\n\n#include <a>\nint x;\n") := by decide +kernel

/-- A file without a header; and one that has it already. -/
example : checkFileHeader (txt "/* New */\n") (txt "int x; // x\n") = some (txt "/* New */\nint x; // x\n") ∧
    checkFileHeader (txt "/* New */\n") (txt "/* New */\nint x; // x\n") = some (txt "/* New */\nint x; // x\n") := by
  decide +kernel

/-- The first token of a file, computed. -/
theorem first_of_eval {src : List Byte} {t : Token} (h : firstCode (src.length + 1) (PP.init [] src) = some t) :
    FirstOf src t := (firstCode_iff src t).1 h

/-- A file is `Plain` if its bytes are. -/
theorem plain_of {src : List Byte} (h : src.length < 2 ^ 32) (ha : ∀ b ∈ src, b.toNat < 0x80) : Plain src :=
  ⟨h, fun _ _ b hb => ha b (List.mem_of_mem_take hb)⟩

/-- The conditions of `C87_replaces` are met by a file with an old header, followed by a blank line. -/
example : Lead (txt "// Old\n/* header */\n") ∧ SolidLines (txt "// Old\n/* header */\n") ∧
    Ready (txt "\n// Text.\n#include <a>\n") ∧
    Plain (txt "// Old\n/* header */\n" ++ txt "\n// Text.\n#include <a>\n") := by
  refine ⟨?_, ?_, ?_, plain_of (by decide) (by decide +kernel)⟩
  · rw [show txt "// Old\n/* header */\n" =
      47 :: 47 :: (txt " Old" ++ 10 :: (47 :: 42 :: (txt " header " ++ 42 :: 47 :: [10]))) by decide +kernel]
    exact .line (by decide +kernel) (.block (calm_plain (by decide +kernel)) (.blank (by decide) .nil))
  · rw [show txt "// Old\n/* header */\n" = txt "// Old" ++ 10 :: (txt "/* header */" ++ 10 :: []) by decide +kernel]
    exact .cons (by decide +kernel) (by decide +kernel) (.cons (by decide +kernel) (by decide +kernel) .nil)
  · refine ⟨⟨10, .directive, txt "#include <a>\n"⟩, first_of_eval (by decide +kernel), by decide, Or.inl ?_⟩
    exact ⟨[], txt "// Text.\n#include <a>\n", by decide +kernel, by decide, by decide⟩

/-- And so are those of `C87_code_partial` and `C87_idempotent_partial`. -/
example : ∃ out, checkFileHeader plywoodHeader (txt "// Old\n" ++ txt "int x;\n") = some out ∧
    out.length < 2 ^ 32 ∧
    ∀ dropped rest, txt "// Old\n" ++ txt "int x;\n" = dropped ++ rest → out = plywoodHeader ++ rest → Lead dropped := by
  refine ⟨plywoodHeader ++ txt "int x;\n", by decide +kernel, by decide +kernel, ?_⟩
  intro dropped rest h1 h2
  have h3 := List.append_cancel_left h2
  subst h3
  have h4 := List.append_cancel_right h1
  subst h4
  rw [show txt "// Old\n" = 47 :: 47 :: (txt " Old" ++ 10 :: []) by decide +kernel]
  exact .line (by decide +kernel) .nil

/-- The code of a file, computed. -/
theorem code_of_eval {src : List Byte} {cs : List (TT × List Byte)} (n : Nat)
    (h : (readAll n (PP.init [] src)).map (fun r => (r.1.map fun t => (t.type, t.text)).filter fun c => ¬ IsComment c.1) =
      some cs) : CodeOf src cs := by
  cases hr : readAll n (PP.init [] src) with
  | none => rw [hr] at h; cases h
  | some x =>
    rw [hr] at h
    exact ⟨n, x.1, x.2, hr, (Option.some.inj h).symm⟩

/-! ## What goes wrong -/

/-- **A comment is cut in two** at a blank line inside: the rest of it becomes code. -/
theorem C87_comment_cut : checkFileHeader (txt "/* New */\n") (txt "/* Old\n\n header */\nint x;\n") =
      some (txt "/* New */\n\n header */\nint x;\n") ∧
    CodeOf (txt "/* Old\n\n header */\nint x;\n")
      [(.identifier, txt "int"), (.identifier, txt "x"), (.semicolon, txt ";")] ∧
    CodeOf (txt "/* New */\n\n header */\nint x;\n")
      [(.identifier, txt "header"), (.star, txt "*"), (.forwardSlash, txt "/"), (.identifier, txt "int"),
        (.identifier, txt "x"), (.semicolon, txt ";")] :=
  ⟨by decide +kernel, code_of_eval 9 (by decide +kernel), code_of_eval 9 (by decide +kernel)⟩

/-- **A comment is cut in two** if code follows on the line it ends in; cleaning up again takes away the code
itself. -/
theorem C87_line_shared : checkFileHeader (txt "/* New */\n") (txt "/* Old\n// */ int x;\nint y;\n") =
      some (txt "/* New */\n// */ int x;\nint y;\n") ∧
    checkFileHeader (txt "/* New */\n") (txt "/* New */\n// */ int x;\nint y;\n") = some (txt "/* New */\nint y;\n") := by
  decide +kernel

/-- **No code**: the end of the file has no text, so that there is no place to cut. -/
theorem C87_no_code (H : List Byte) : checkFileHeader H [] = none ∧
    checkFileHeader H (txt "// Nothing here yet.\n") = none := by
  have h : ∀ src : List Byte, (firstCode (src.length + 1) (PP.init [] src)).map Token.type = some .endOfFile →
      checkFileHeader H src = none := by
    intro src hs
    unfold checkFileHeader
    cases hf : firstCode (src.length + 1) (PP.init [] src) with
    | none => rfl
    | some t =>
      rw [hf] at hs
      dsimp only
      rw [if_pos (Option.some.inj hs)]
  exact ⟨h _ (by decide +kernel), h _ (by decide +kernel)⟩

/-- **Not the header**: a comment at the top that is about the code right below it is taken away as well. -/
theorem C87_text_lost : checkFileHeader (txt "/* New */\n") (txt "// Never call this twice.\nvoid f();\n") =
    some (txt "/* New */\nvoid f();\n") := by decide +kernel

/-- **Errors are not looked at**: text that cannot be read is taken away with the comments. -/
theorem C87_garbage_lost : checkFileHeader (txt "/* New */\n") (txt "// Old\n@@\nint x;\n") =
    some (txt "/* New */\nint x;\n") := by decide +kernel

end Verif.Clean

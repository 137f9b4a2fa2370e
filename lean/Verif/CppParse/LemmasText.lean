import Verif.CppParse.LemmasSim
import Verif.CppParse.LemmasDecl
import Verif.Cpp.LemmasWrite
/-! # The parser for C++ — lemmas: tokens that a text gives -/
namespace Verif.CppParse
open Verif Verif.Cpp

/-- The text gives the tokens, whatever `tokenizeCloseAnglesOnly` is, and no error is found in it. -/
def Supp : List Token → PP → Prop
  | [], pp => pp.errors = []
  | t :: l, pp => ∀ a, ∃ q, Source.next a pp = some ([], t, q) ∧ Supp l q

/-- Tokens as a list, and the text that gives them. -/
theorem supp_gives : Gives (fun (s : Lim) (pp : PP) => Supp s.l pp) := by
  intro s pp h a cs t s1 hn
  obtain ⟨l⟩ := s
  cases l with
  | nil => cases hn
  | cons u l =>
    obtain ⟨q, h1, h2⟩ := h a
    simp only [Source.next] at hn
    by_cases hu : skipped u.type = true
    · rw [if_pos hu] at hn; cases hn
    · rw [if_neg hu] at hn
      cases hn
      exact ⟨q, h1, h2⟩

/-- Tokens as a list, and the same list as a source that ends with the end of the file. -/
theorem list_gives : Gives (fun (s : Lim) (l : List Token) => s.l = l ++ [⟨-1, .endOfFile, []⟩] ∨ (s.l = [] ∧ l = [])) := by
  intro s l h a cs t s1 hn
  obtain ⟨m⟩ := s
  cases m with
  | nil => cases hn
  | cons u m =>
    simp only [Source.next] at hn
    by_cases hu : skipped u.type = true
    · rw [if_pos hu] at hn; cases hn
    · rw [if_neg hu] at hn
      cases hn
      rcases h with h | h
      · cases l with
        | nil =>
          cases h
          exact ⟨[], rfl, Or.inr ⟨rfl, rfl⟩⟩
        | cons v l =>
          cases h
          refine ⟨l, ?_, Or.inl rfl⟩
          simp only [Source.next]
          rw [List.takeWhile_cons_of_neg (by simpa using hu)]
          simp
      · cases h.1

/-- Where the end of the file is found. -/
def eofLoc (e : Int) (gap : List Byte) : List (TT × List Byte × List Byte) → Int
  | [] => if gap = [] then -1 else locAt e gap
  | x :: l => eofLoc e x.2.2 l

theorem next_first {a : Bool} {pp q : PP} {t : Token} (h : Cpp.readToken { pp with angles := a } = some (t, q))
    (hs : skipped t.type = false) : Source.next a pp = some ([], t, q) := by
  show nextOf _ _ _ = _
  unfold nextOf
  rw [h]
  dsimp only
  rw [if_neg (by rw [hs]; simp)]

theorem read_pop {pp : PP} {g : Cpp.Frame} (hs : pp.stack = [g]) (hg : g.rest = []) :
    Cpp.readToken pp = some (⟨-1, .endOfFile, []⟩, { pp with stack := [] }) := by
  have hpop : step pp (-1) = some (.again { pp with stack := [] } (-1)) := by
    unfold step
    rw [hs]
    dsimp only
    rw [if_pos hg]
    rfl
  unfold Cpp.readToken
  rw [size_cons pp g [] hs, hg]
  simp only [List.length_nil, List.map_nil, List.sum_nil]
  unfold readLoop
  rw [hpop]
  dsimp only
  unfold readLoop
  rfl

theorem read_gap {pp : PP} {f : Cpp.Frame} (hs : pp.stack = [f]) (he : 0 ≤ pp.endLoc) (hb : Blank f.rest)
    (hg : f.rest ≠ []) :
    ∃ q, Cpp.readToken pp = some (⟨locAt pp.endLoc f.rest, .endOfFile, []⟩, q) ∧ q.stack = [] ∧ q.errors = pp.errors := by
  obtain ⟨q, h1, h2, h3⟩ := step_gap (loc := -1) (more := []) hs he (by simp) hb hg
    (fun x v h => by cases h)
  refine ⟨{ q with stack := [] }, ?_, rfl, h3.errors⟩
  have hpop : ∀ l, step q l = some (.again { q with stack := [] } l) := by
    intro l
    unfold step
    rw [h2]
    dsimp only
    rw [if_pos rfl]
    rfl
  have hlen : 0 < f.rest.length := List.length_pos_iff.mpr hg
  unfold Cpp.readToken
  rw [size_cons pp f [] hs]
  simp only [List.map_nil, List.sum_nil]
  obtain ⟨k, hk⟩ : ∃ k, f.rest.length = k + 1 := ⟨f.rest.length - 1, by omega⟩
  rw [hk]
  unfold readLoop
  rw [h1]
  dsimp only
  unfold readLoop
  rw [hpop]
  dsimp only
  unfold readLoop
  rfl

theorem read_none {pp : PP} (hs : pp.stack = []) : Cpp.readToken pp = some (⟨-1, .endOfFile, []⟩, pp) := by
  unfold Cpp.readToken readLoop step
  rw [hs]

/-- A written text gives its tokens, and then the end of the file, twice. -/
theorem written_supp : ∀ (l : List (TT × List Byte × List Byte)) (pp : PP) (f : Cpp.Frame) (gap : List Byte),
    (∀ x ∈ l, Written x.1 x.2.1 ∧ Blank x.2.2 ∧ x.2.2 ≠ [] ∧ skipped x.1 = false ∧ x.1 ≠ .rightShift ∧
      x.1 ≠ .greaterThanOrEqual) →
    pp.stack = [f] → 0 ≤ pp.endLoc → pp.macros = [] → pp.errors = [] → f.rest = gap ++ sourceOf l → Blank gap →
    Supp (tokensOf (locAt pp.endLoc (sourceOf l)) l ++ [⟨eofLoc pp.endLoc gap l, .endOfFile, []⟩, ⟨-1, .endOfFile, []⟩])
      pp := by
  intro l
  induction l with
  | nil =>
    intro pp f gap _ hs he _ herr hf hb a
    simp only [sourceOf, List.append_nil] at hf
    have second : ∀ q : PP, q.stack = [] → q.errors = [] → Supp [⟨-1, .endOfFile, []⟩] q := by
      intro q h1 h2 a
      exact ⟨{ q with angles := a }, next_first (read_none h1) rfl, h2⟩
    by_cases hg : gap = []
    · have e : eofLoc pp.endLoc gap [] = -1 := if_pos hg
      rw [e]
      exact ⟨_, next_first (read_pop (pp := { pp with angles := a }) hs (by rw [hf, hg])) rfl, second _ rfl herr⟩
    · obtain ⟨q, h1, h2, h3⟩ := read_gap (pp := { pp with angles := a }) hs he (by rw [hf]; exact hb) (by rw [hf]; exact hg)
      rw [hf] at h1
      refine ⟨q, next_first ?_ rfl, second _ h2 (h3.trans herr)⟩
      rw [h1]
      simp [eofLoc, hg]
  | cons x l ih =>
    intro pp f gap hl hs he hmac herr hf hb a
    obtain ⟨t, w, g⟩ := x
    obtain ⟨x1, x2, x3, x4, x5, x6⟩ := hl _ List.mem_cons_self
    dsimp only at x1 x2 x3 x4 x5 x6
    cases g with
    | nil => exact absurd rfl x3
    | cons y g =>
      have hsrc : sourceOf ((t, w, y :: g) :: l) = w ++ y :: (g ++ sourceOf l) := by
        simp [sourceOf]
      rw [hsrc] at hf
      obtain ⟨q, h1, h2, h3⟩ := readToken_written (pp := { pp with angles := a }) hs (Or.inr ⟨x5, x6⟩) he hf hb x1
        (x2 y List.mem_cons_self) (by intro _ m hm; dsimp only at hm; rw [hmac] at hm; cases hm)
      have h4 := ih q _ (y :: g) (fun z hz => hl z (List.mem_cons_of_mem _ hz)) h2
        (by rw [h3.endLoc]; exact he) (by rw [h3.macros]; exact hmac) (by rw [h3.errors]; exact herr) rfl x2
      refine ⟨q, next_first ?_ x4, ?_⟩
      · rw [h1, hsrc]
      · have e1 : q.endLoc = pp.endLoc := h3.endLoc
        rw [e1] at h4
        rw [hsrc]
        have : locAt pp.endLoc (w ++ y :: (g ++ sourceOf l)) + w.length + (y :: g).length = locAt pp.endLoc (sourceOf l) := by
          simp only [locAt, List.length_append, List.length_cons]
          omega
        show Supp (tokensOf (locAt pp.endLoc (w ++ y :: (g ++ sourceOf l)) + w.length + (y :: g).length) l ++ _) q
        rw [this]
        exact h4

/-- Correct declarations are parsed, however the tokens are supplied. -/
theorem lim_parses {ds : List Decl} {w : List Token} {e e' : Token} (h : DeclsT [] ds w) (he : e.type = .endOfFile)
    (he' : e'.type = .endOfFile) :
    ∃ N, ∀ n, N ≤ n → ∃ q : P Lim, translationUnit (go n) { src := ⟨w ++ [e, e']⟩ } = .ok ds q ∧ q.errs = [] ∧ q.raw = 0 ∧
      q.seen = [] ∧ q.src.l = [] := by
  have h0 : At 1 none (w ++ [e, e']) { src := ⟨w ++ [e, e']⟩ } :=
    ⟨⟨fun _ => rfl, Nat.zero_le _⟩, rfl, rfl, fun h => (by cases h), fun h => (by cases h), rfl, rfl⟩
  have hd := Eats.inScope (t := .openCurly) (Or.inl rfl)
    (decls_p h false [] e [e'] 1 none (by simp [he]) (Nat.le_refl _))
  obtain ⟨q, ⟨N, r⟩, hq, kp⟩ := hd _ h0
  obtain ⟨q2, ⟨N2, r2⟩, hq2, kp2⟩ := Eats.read (t := e') (l := []) (by rw [he']; rfl) q hq
  have hl := List.append_eq_nil_iff.mp hq2.ahead
  have k := kp.trans kp2
  refine ⟨max N N2, fun n hn => ⟨q2, ?_, k.errs, hq2.raw, k.seen, hl.2⟩⟩
  unfold translationUnit declarationList
  refine (bind_ok (r n (by omega))).trans ?_
  refine (bind_ok (r2 n (by omega))).trans ?_
  refine (bind_ok (a := ()) (q := q2) ?_).trans rfl
  unfold check
  rw [if_pos (by simp [he'])]

end Verif.CppParse

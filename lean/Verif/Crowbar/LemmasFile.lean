import Verif.Crowbar.LemmasStmt

/-!
# Parsing printed programs
-/

namespace Verif.Crowbar

/-- The names after the first one, each preceded by a comma. -/
def moreNames : List (List Byte) → List Byte
  | [] => []
  | m :: r => [32, 44] ++ ((32 :: m) ++ moreNames r)

theorem textNames_cons (n : List Byte) (r : List (List Byte)) : textNames (n :: r) = (32 :: n) ++ moreNames r := by
  induction r generalizing n with
  | nil => simp [textNames, moreNames]
  | cons m r ih => rw [textNames, ih, moreNames]; simp

theorem more_sep (r : List (List Byte)) (x : List Byte) (hx : Sep x) : Sep (moreNames r ++ x) := by
  cases r with
  | nil => exact hx
  | cons m r => exact .inr (.inl ⟨_, rfl⟩)

theorem paramLoop_up {ps : List (List Byte)} {p : Tok} {s : PS} {r : List (List Byte) × PS} {n m : Nat} (hnm : n ≤ m)
    (h : paramLoop n ps p s = .ok r) : paramLoop m ps p s = .ok r :=
  mono_ok (f := fun n => paramLoop n ps p) (fun n => paramLoop_mono n ps p) hnm h

theorem paramLoop_text (r : List (List Byte)) : (∀ x ∈ r, NameOk x) → ∀ (params : List (List Byte)) (p : Tok) (s : PS)
    (rest : List Byte), p.ty = .identifier → Good s → s.src = moreNames r ++ 32 :: 41 :: rest →
    ∃ n, paramLoop n params p s = .ok (params ++ p.text :: r, peek { s with src := 32 :: 41 :: rest }) := by
  induction r with
  | nil =>
    intro _ params p s rest hp hg hs
    rw [moreNames] at hs
    have hs' : s.src = 32 :: 41 :: rest := hs
    have he : { s with src := 32 :: 41 :: rest } = s := by rw [← hs']
    have hnt : nextTok s = _ := (congrArg _ hs').trans (lex_close s.total s.nl rest)
    have hrw := rewind_next (s := s) hg.back
    rw [hnt] at hrw
    refine ⟨1, ?_⟩
    rw [paramLoop, if_pos hp, bind_ok (pure_ok false s)]
    simp only [Bool.false_eq_true, if_false]
    rw [bind_ok (read_good hg.back hg.inStr), hnt]
    dsimp only
    rw [if_pos rfl, bind_ok hrw, pure_ok, if_pos hp, he]
  | cons m r ih =>
    intro h params p s rest hp hg hs
    let y := moreNames r ++ 32 :: 41 :: rest
    have hs' : s.src = 32 :: 44 :: (32 :: m ++ y) := by rw [hs, moreNames]; simp [y]
    have hnt : nextTok s = _ := (congrArg _ hs').trans (lex_comma s.total s.nl _)
    let s2 : PS := { s with src := 32 :: m ++ y }
    have hnt2 : nextTok s2 = _ := lex_name s.total s.nl m y (h m (List.mem_cons_self ..))
      (more_sep r _ (.inr (.inl ⟨_, rfl⟩)))
    obtain ⟨n, hn⟩ := ih (fun x hx => h x (List.mem_cons_of_mem _ hx)) (params ++ [p.text])
      ⟨.identifier, s.total - (m ++ y).length, m⟩ { s with src := y } rest rfl ⟨hg.back, hg.inStr, hg.mute⟩ rfl
    refine ⟨n + 1, ?_⟩
    rw [paramLoop, if_pos hp, bind_ok (pure_ok false s)]
    simp only [Bool.false_eq_true, if_false]
    rw [bind_ok (read_good hg.back hg.inStr), hnt]
    dsimp only
    rw [if_neg (by simp), if_pos rfl, bind_ok (pure_ok false _)]
    simp only [Bool.false_eq_true, if_false]
    rw [bind_ok (read_good (s := s2) hg.back hg.inStr), hnt2, if_pos hp]
    rw [List.append_assoc] at hn
    exact hn

theorem parseParams_text (r : List (List Byte)) (h : ∀ x ∈ r, NameOk x) (s : PS) (rest : List Byte) (hg : Good s)
    (hnl : s.nl = false) (hs : s.src = textNames r ++ 32 :: 41 :: rest) :
    ∃ n, ∀ m, n ≤ m → parseParams m s = .ok (r, peek { s with src := 32 :: 41 :: rest }) := by
  have hself : { s with nl := false } = s := nl_self hnl
  have hpnl : (peek { s with src := 32 :: 41 :: rest }).nl = s.nl := by
    rw [peek_eq (s := { s with src := 32 :: 41 :: rest }) (lex_close s.total s.nl rest) (by simp)]
  cases r with
  | nil =>
    rw [textNames] at hs
    have hs' : s.src = 32 :: 41 :: rest := hs
    have he : { s with src := 32 :: 41 :: rest } = s := by rw [← hs']
    have hnt : nextTok s = _ := (congrArg _ hs').trans (lex_close s.total s.nl rest)
    have hrw := rewind_next (s := s) hg.back
    rw [hnt] at hrw
    refine ⟨0, fun m _ => ?_⟩
    unfold parseParams
    rw [withNl_ok (s' := peek { s with src := 32 :: 41 :: rest }) (a := [])]
    · rw [nl_self hpnl]
    · rw [hself, he, bind_ok (read_good hg.back hg.inStr), hnt]
      dsimp only
      rw [if_pos rfl, bind_ok hrw, pure_ok]
  | cons p r =>
    rw [textNames_cons] at hs
    let y := moreNames r ++ 32 :: 41 :: rest
    have hs' : s.src = 32 :: p ++ y := by rw [hs]; simp [y]
    have hnt : nextTok s = _ := (congrArg _ hs').trans (lex_name s.total s.nl p y (h p (List.mem_cons_self ..))
      (more_sep r _ (.inr (.inl ⟨_, rfl⟩))))
    obtain ⟨n, hn⟩ := paramLoop_text r (fun x hx => h x (List.mem_cons_of_mem _ hx)) []
      ⟨.identifier, s.total - (p ++ y).length, p⟩ { s with src := y, acc := s.acc.orParen } rest rfl
      ⟨hg.back, hg.inStr, hg.mute⟩ rfl
    refine ⟨n, fun m hm => ?_⟩
    unfold parseParams
    rw [withNl_ok (s' := peek { s with src := 32 :: 41 :: rest }) (a := p :: r)]
    · rw [nl_self hpnl]
    · rw [hself, bind_ok (read_good hg.back hg.inStr), hnt]
      dsimp only
      rw [if_neg (by simp), withAccept_ok (paramLoop_up hm hn)]
      rw [peek_eq (s := { s with src := 32 :: 41 :: rest }) (lex_close s.total s.nl rest) (by simp),
        peek_eq (s := { s with src := 32 :: 41 :: rest, acc := s.acc.orParen }) (lex_close s.total s.nl rest) (by simp)]
      rfl

theorem parseFunc_up {s : PS} {r : Option Stmt × PS} {n m : Nat} (hnm : n ≤ m) (h : parseFunc n s = .ok r) :
    parseFunc m s = .ok r :=
  mono_ok (f := parseFunc) parseFunc_mono hnm h

theorem parseFunc_text (name : List Byte) (ps : List (List Byte)) (b : List Stmt) (hn : NameOk name)
    (hp : ∀ x ∈ ps, NameOk x) (hb : StmtsOk b) (s : PS) (rest : List Byte) (hg : Good s) (hnl : s.nl = false)
    (hs : s.src = 32 :: name ++ 32 :: 40 :: (textNames ps ++ 32 :: 41 :: (textBlock levelBelow (some b) ++ rest))) :
    ∃ n, parseFunc n s = .ok (some (.func name ps (some b)), { s with src := rest }) := by
  let z := textBlock levelBelow (some b) ++ rest
  let y := textNames ps ++ 32 :: 41 :: z
  have hnt : nextTok s = _ := (congrArg _ hs).trans (lex_name s.total s.nl name (32 :: 40 :: y) hn (.inr (.inl ⟨_, rfl⟩)))
  let s1 : PS := { s with src := 32 :: 40 :: y }
  have hnt1 : nextTok s1 = _ := lex_open s.total s.nl y
  let s2 : PS := { s with src := y }
  obtain ⟨n1, h1⟩ := parseParams_text ps hp s2 z ⟨hg.back, hg.inStr, hg.mute⟩ hnl rfl
  have hr : read (peek { s2 with src := 32 :: 41 :: z }) =
      .ok (⟨.closeParen, s.total - (z.length + 1), [41]⟩, { s with src := z }) := by
    rw [read_peek (s := { s2 with src := 32 :: 41 :: z }) hg.back hg.inStr,
      read_good (s := { s2 with src := 32 :: 41 :: z }) hg.back hg.inStr]
    unfold nextTok
    rw [show ({ s2 with src := 32 :: 41 :: z } : PS).src = 32 :: 41 :: z from rfl, lex_close]
  obtain ⟨n2, h2⟩ := block_plain (body_claim b hb) false (s := { s with src := z }) (rest := rest)
    ⟨hg.back, hg.inStr, hg.mute⟩ rfl
  refine ⟨max n1 n2, ?_⟩
  unfold parseFunc
  rw [bind_ok (setMute_good hg.mute), bind_ok (read_good hg.back hg.inStr), hnt]
  dsimp only
  rw [if_pos rfl, bind_ok (read_good (s := s1) hg.back hg.inStr), hnt1]
  dsimp only
  rw [if_pos rfl, bind_ok (h1 _ (Nat.le_max_left ..)), bind_ok hr]
  dsimp only
  rw [if_pos rfl, bind_ok (setMute_good (s := { s with src := z }) hg.mute),
    bind_ok (block_up (Nat.le_max_right ..) h2), pure_ok]

theorem fileLoop_up {b : List Stmt} {s : PS} {r : List Stmt × PS} {n m : Nat} (hnm : n ≤ m)
    (h : fileLoop n b s = .ok r) : fileLoop m b s = .ok r :=
  mono_ok (f := fun n => fileLoop n b) (fun n => fileLoop_mono n b) hnm h

theorem fileLoop_text (prog : List Stmt) : (∀ f ∈ prog, FuncOk f) → ∀ (s : PS) (b : List Stmt), Good s → s.nl = false →
    (∃ pre, (pre = [] ∨ pre = [10]) ∧ s.src = pre ++ textStmts levelBelow prog) →
    ∃ n, fileLoop n b s = .ok (b ++ prog, { s with src := [] }) := by
  induction prog with
  | nil =>
    intro _ s b hg hnl ⟨pre, hpre, hs⟩
    rw [textStmts] at hs
    have hnt : nextTok s = (⟨.endOfFile, s.total, []⟩, []) := by
      unfold nextTok
      rw [hs, hnl]
      rcases hpre with h | h <;> subst h
      · rfl
      · exact (lex_skipNewLine _ _).trans rfl
    refine ⟨1, ?_⟩
    rw [fileLoop, bind_ok (read_good hg.back hg.inStr), hnt]
    dsimp only
    rw [if_pos rfl, pure_ok, List.append_nil]
  | cons f prog ih =>
    intro hok s b hg hnl ⟨pre, hpre, hs⟩
    have hf := hok f (List.mem_cons_self ..)
    match f, hf with
    | .func name ps none, hf => rw [FuncOk] at hf; cases hf.2.2.1
    | .func name ps (some body), hf =>
      rw [FuncOk, BlockOk] at hf
      obtain ⟨h1, h2, -, h4⟩ := hf
      let z := textStmts levelBelow prog
      let y := 32 :: name ++ 32 :: 40 :: (textNames ps ++ 32 :: 41 :: (textBlock levelBelow (some body) ++ 10 :: z))
      have hs' : s.src = pre ++ (32 :: kwFn ++ y) := by rw [hs, textStmts, textStmt]; simp [y, z, kwFn]
      have hnt : nextTok s = (⟨.identifier, s.total - (kwFn ++ y).length, kwFn⟩, y) := by
        have hl := lex_key s.total false kwFn y (by simp) (.inr (.inl ⟨_, rfl⟩))
        unfold nextTok
        rw [hs', hnl]
        rcases hpre with h | h <;> subst h
        · exact hl
        · exact (lex_skipNewLine _ _).trans hl
      obtain ⟨n1, hn1⟩ := parseFunc_text name ps body h1 h2 h4 { s with src := y } (10 :: z)
        ⟨hg.back, hg.inStr, hg.mute⟩ hnl rfl
      obtain ⟨n2, hn2⟩ := ih (fun x hx => hok x (List.mem_cons_of_mem _ hx)) { s with src := 10 :: z }
        (b ++ [.func name ps (some body)]) ⟨hg.back, hg.inStr, hg.mute⟩ hnl ⟨[10], .inr rfl, rfl⟩
      refine ⟨max n1 n2 + 1, ?_⟩
      rw [fileLoop, bind_ok (read_good hg.back hg.inStr), hnt]
      dsimp only
      rw [if_neg (by simp), if_pos (by simp [isKey]), bind_ok (parseFunc_up (Nat.le_max_left ..) hn1)]
      have := fileLoop_up (Nat.le_max_right n1 n2) hn2
      rw [List.append_assoc] at this
      exact this

end Verif.Crowbar

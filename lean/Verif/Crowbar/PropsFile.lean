import Verif.Crowbar.LemmasFile

/-!
# The program parser — properties
-/

namespace Verif.Crowbar
open Verif

/-- **C65**: a program — functions with parameters, `if`, `else`, `while`, `return`, assignments and calls, of
any depth and size — that is written down and parsed comes back as it was, without errors. -/
theorem C65_roundtrip (prog : List Stmt) (h : ∀ f ∈ prog, FuncOk f) :
    ∃ n, ∀ m, n ≤ m → parseFile m (textStmts levelBelow prog) = .ok (prog, []) := by
  obtain ⟨n, hn⟩ := fileLoop_text prog h (start (textStmts levelBelow prog)) [] ⟨rfl, rfl, rfl⟩ rfl ⟨[], .inl rfl, rfl⟩
  refine ⟨n, fun m hm => ?_⟩
  unfold parseFile
  rw [fileLoop_up hm hn]
  rfl

theorem read_eof {s : PS} (hb : s.back = none) (hi : s.inStr = false) (hs : s.src = []) :
    read s = .ok (⟨.endOfFile, s.total, []⟩, s) := by
  have h : nextTok s = (⟨.endOfFile, s.total, []⟩, []) := by unfold nextTok; rw [hs]; rfl
  rw [read_good hb hi, h]
  cases s; simp_all

theorem error_eof (n : Nat) (t : Tok) (ht : t.ty = .endOfFile) (k : ErrKind) (s : PS) : ∃ s', error n t .handle k s = .ok (false, s') ∧
    s'.back = s.back ∧ s'.inStr = s.inStr ∧ s'.src = s.src := by
  refine ⟨{ s with mute := true, errs := if s.mute then s.errs else s.errs ++ [(t.off, k)] }, ?_, rfl, rfl, rfl⟩
  unfold error
  rw [bind_ok (show report t k s = .ok ((), _) from rfl)]
  dsimp only
  unfold handleUnexpected
  rw [bind_ok (a := false)]
  · rfl
  · unfold okToStay
    rw [ht]
    simp

theorem paramLoop_eof (n : Nat) : ∀ (params : List (List Byte)) (p : Tok) (s : PS), p.ty = .endOfFile → s.back = none →
    s.inStr = false → s.src = [] → paramLoop n params p s = .deep := by
  induction n with
  | zero => intro _ _ _ _ _ _ _; rfl
  | succ n ih =>
    intro params p s hp hb hi hs
    obtain ⟨s1, h1, b1, i1, r1⟩ := error_eof n p hp .parameter s
    rw [paramLoop, if_neg (by rw [hp]; simp), bind_ok h1]
    simp only [Bool.false_eq_true, if_false]
    have e1 := read_eof (b1.trans hb) (i1.trans hi) (r1.trans hs)
    rw [bind_ok e1]
    dsimp only
    obtain ⟨s2, h2, b2, i2, r2⟩ := error_eof n ⟨.endOfFile, s1.total, []⟩ rfl .commaAfterParameter s1
    rw [if_neg (by simp), if_neg (by simp), bind_ok h2]
    simp only [Bool.false_eq_true, if_false]
    rw [bind_ok (read_eof (b2.trans (b1.trans hb)) (i2.trans (i1.trans hi)) (r2.trans (r1.trans hs)))]
    exact ih _ _ _ rfl (b2.trans (b1.trans hb)) (i2.trans (i1.trans hi)) (r2.trans (r1.trans hs))

theorem paramLoop_open (n : Nat) : ∀ (r params : List (List Byte)) (p : Tok) (s : PS), p.ty = .identifier →
    (∀ x ∈ r, NameOk x) → s.back = none → s.inStr = false → s.src = moreNames r → paramLoop n params p s = .deep := by
  induction n with
  | zero => intro _ _ _ _ _ _ _ _ _; rfl
  | succ n ih =>
    intro r params p s hp hr hb hi hs
    rw [paramLoop, if_pos hp, bind_ok (pure_ok false s)]
    simp only [Bool.false_eq_true, if_false]
    cases r with
    | nil =>
      rw [moreNames] at hs
      rw [bind_ok (read_eof hb hi hs)]
      dsimp only
      obtain ⟨s2, h2, b2, i2, r2⟩ := error_eof n ⟨.endOfFile, s.total, []⟩ rfl .commaAfterParameter s
      rw [if_neg (by simp), if_neg (by simp), bind_ok h2]
      simp only [Bool.false_eq_true, if_false]
      rw [bind_ok (read_eof (b2.trans hb) (i2.trans hi) (r2.trans hs))]
      exact paramLoop_eof n _ _ _ rfl (b2.trans hb) (i2.trans hi) (r2.trans hs)
    | cons m r =>
      have hs' : s.src = 32 :: 44 :: (32 :: m ++ moreNames r) := by rw [hs, moreNames]; simp
      have hnt : nextTok s = _ := (congrArg _ hs').trans (lex_comma s.total s.nl _)
      let s2 : PS := { s with src := 32 :: m ++ moreNames r }
      have hnt2 : nextTok s2 = _ := lex_name s.total s.nl m (moreNames r) (hr m (List.mem_cons_self ..)) (by
        have := more_sep r [] (.inl rfl)
        rwa [List.append_nil] at this)
      rw [bind_ok (read_good hb hi), hnt]
      dsimp only
      rw [if_neg (by simp), if_pos rfl, bind_ok (pure_ok false _)]
      simp only [Bool.false_eq_true, if_false]
      rw [bind_ok (read_good (s := s2) hb hi), hnt2]
      exact ih r _ _ _ rfl (fun x hx => hr x (List.mem_cons_of_mem _ hx)) hb hi rfl

theorem bind_deep {m : P α} {f : α → P β} {s : PS} (h : m s = .deep) : (m >>= f) s = .deep := by
  show P.bind m f s = _
  unfold P.bind
  rw [h]

theorem withNl_deep {b : Bool} {m : P α} {s : PS} (h : m { s with nl := b } = .deep) : withNl b m s = .deep := by
  unfold withNl; rw [h]

theorem withAccept_deep {f : Accept → Accept} {m : P α} {s : PS} (h : m { s with acc := f s.acc } = .deep) :
    withAccept f m s = .deep := by
  unfold withAccept; rw [h]

/-- **C65**, where the code departs from it: on a file that ends inside the parameter list of a function — `fn f(`,
`fn f(a, b` — parsing never ends. -/
theorem C65_unclosed_parameters_hang (name : List Byte) (ps : List (List Byte)) (hn : NameOk name)
    (hp : ∀ x ∈ ps, NameOk x) (n : Nat) :
    parseFile n ([32, 102, 110, 32] ++ name ++ [32, 40] ++ textNames ps) = .deep := by
  unfold parseFile
  rw [show fileLoop n [] (start ([32, 102, 110, 32] ++ name ++ [32, 40] ++ textNames ps)) = .deep from ?_]
  cases n with
  | zero => rfl
  | succ n =>
    let y := textNames ps
    let w := 32 :: name ++ 32 :: 40 :: y
    have hsrc : [32, 102, 110, 32] ++ name ++ [32, 40] ++ textNames ps = 32 :: kwFn ++ w := by simp [w, y, kwFn]
    rw [hsrc]
    let s := start (32 :: kwFn ++ w)
    have hnt : nextTok s = _ := lex_key s.total false kwFn w (by simp) (.inr (.inl ⟨_, rfl⟩))
    rw [fileLoop, bind_ok (read_good (s := s) rfl rfl), hnt]
    dsimp only
    rw [if_neg (by simp), if_pos (by simp [isKey])]
    refine bind_deep ?_
    unfold parseFunc
    rw [bind_ok (setMute_good (s := { s with src := w }) rfl)]
    have hnt2 : nextTok { s with src := w } = _ := lex_name s.total false name (32 :: 40 :: y) hn (.inr (.inl ⟨_, rfl⟩))
    rw [bind_ok (read_good (s := { s with src := w }) rfl rfl), hnt2]
    dsimp only
    rw [if_pos rfl]
    have hnt3 : nextTok { s with src := 32 :: 40 :: y } = _ := lex_open s.total false y
    rw [bind_ok (read_good (s := { s with src := 32 :: 40 :: y }) rfl rfl), hnt3]
    dsimp only
    rw [if_pos rfl]
    refine bind_deep ?_
    unfold parseParams
    refine withNl_deep ?_
    cases ps with
    | nil =>
      rw [bind_ok (read_eof (s := { s with src := y, nl := false }) rfl rfl rfl)]
      dsimp only
      rw [if_neg (by simp)]
      exact withAccept_deep (paramLoop_eof n _ _ _ rfl rfl rfl rfl)
    | cons p r =>
      have hy : y = 32 :: p ++ moreNames r := textNames_cons p r
      have hnt4 : nextTok { s with src := y, nl := false } = _ := (congrArg (lex s.total false) hy).trans
        (lex_name s.total false p (moreNames r) (hp p (List.mem_cons_self ..)) (by
          have := more_sep r [] (.inl rfl)
          rwa [List.append_nil] at this))
      rw [bind_ok (read_good (s := { s with src := y, nl := false }) rfl rfl), hnt4]
      dsimp only
      rw [if_neg (by simp)]
      exact withAccept_deep (paramLoop_open n r _ _ _ rfl (fun x hx => hp x (List.mem_cons_of_mem _ hx)) rfl rfl rfl)

/-- `fn f(a, b) { while a { a = b; g() } return a }` and `fn g() { }`. -/
example : ∀ f ∈ [Stmt.func [102] [[97], [98]] (some [.while_ (.name [97]) (some [.assign (.name [97]) (.name [98]),
      .eval (.call (.name [103]) [])]), .ret (.name [97])]), Stmt.func [103] [] (some [])], FuncOk f := by
  have n : ∀ c : Byte, (97 ≤ c.toNat ∧ c.toNat ≤ 122) → NameOk [c] := by
    intro c hc
    refine ⟨⟨c, [], rfl, .inl hc, by simp⟩, by simp, by simp, by simp, by simp⟩
  simp [FuncOk, BlockOk, StmtsOk, StmtOk, ExprOk, ArgsOk, n]

/-- The file ` fn f ( a , b`. -/
example (n : Nat) : parseFile n [32, 102, 110, 32, 102, 32, 40, 32, 97, 32, 44, 32, 98] = .deep :=
  have ok : ∀ c : Byte, (97 ≤ c.toNat ∧ c.toNat ≤ 122) → NameOk [c] := fun c hc =>
    ⟨⟨c, [], rfl, .inl hc, by simp⟩, by simp, by simp, by simp, by simp⟩
  C65_unclosed_parameters_hang [102] [[97], [98]] (ok _ (by decide)) (by simp [ok]) n

end Verif.Crowbar

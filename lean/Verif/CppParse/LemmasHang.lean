import Verif.CppParse.Lemmas
/-! # The parser for C++ — lemmas: parsing that does not end -/
namespace Verif.CppParse
open Verif Verif.Cpp

variable {σ : Type}

/-! ## If a part does not end, the whole does not end -/

/-- If `m` ends with `stop fuel`, so does `m'`; if `m` has a result, `m'` has it too, or ends with `stop fuel`. -/
def Ka {β : Type} (m m' : M σ β) : Prop :=
  ∀ p, (m p = .stop .fuel → m' p = .stop .fuel) ∧
    (∀ b q, m p = .ok b q → m' p = .ok b q ∨ m' p = .stop .fuel)

theorem Ka.bind {α β : Type} {m m' : M σ α} {f f' : α → M σ β} (h : Ka m m') (hf : ∀ a, Ka (f a) (f' a)) :
    Ka (m >>= f) (m' >>= f') := by
  intro p
  obtain ⟨h1, h2⟩ := h p
  cases e : m p with
  | stop s =>
    rw [bind_stop e]
    cases s with
    | assert => exact ⟨fun x => by (cases x), fun b q x => by (cases x)⟩
    | fuel => rw [bind_stop (h1 e)]; exact ⟨fun _ => rfl, fun b q x => by (cases x)⟩
  | ok a q =>
    rw [bind_ok e]
    rcases h2 a q e with h | h
    · rw [bind_ok h]; exact hf a q
    · rw [bind_stop h]; exact ⟨fun _ => rfl, fun _ _ _ => .inr rfl⟩

/-- `Ka` is kept by all that the functions consist of. -/
def kaRel (σ : Type) : Rel σ where
  r := Ka
  refl := fun m p => ⟨id, fun _ _ x => .inl x⟩
  bind := Ka.bind
  inScope := by
    intro β t m m' h p
    unfold CppParse.inScope
    cases scopeFlags p.accept t with
    | none => exact ⟨fun x => by (cases x), fun b q x => by (cases x)⟩
    | some ab =>
      obtain ⟨a, b⟩ := ab
      obtain ⟨h1, h2⟩ := h { p with accept := a, angles := b }
      dsimp only
      cases e : m { p with accept := a, angles := b } with
      | stop s =>
        cases s with
        | assert => exact ⟨fun x => by (cases x), fun b q x => by (cases x)⟩
        | fuel => rw [h1 e]; exact ⟨fun _ => rfl, fun b q x => by (cases x)⟩
      | ok r q =>
        rcases h2 r q e with h | h <;> rw [h]
        · exact ⟨id, fun _ _ x => .inl x⟩
        · exact ⟨fun _ => rfl, fun _ _ _ => .inr rfl⟩
  withAngles := by
    intro β m m' h p
    unfold CppParse.withAngles
    obtain ⟨h1, h2⟩ := h { p with angles := true }
    cases e : m { p with angles := true } with
    | stop s =>
      cases s with
      | assert => exact ⟨fun x => by (cases x), fun b q x => by (cases x)⟩
      | fuel => rw [h1 e]; exact ⟨fun _ => rfl, fun b q x => by (cases x)⟩
    | ok r q =>
      rcases h2 r q e with h | h <;> rw [h]
      · exact ⟨id, fun _ _ x => .inl x⟩
      · exact ⟨fun _ => rfl, fun _ _ _ => .inr rfl⟩
  acceptingCurly := by
    intro β m m' h p
    unfold CppParse.acceptingCurly
    obtain ⟨h1, h2⟩ := h { p with accept := { p.accept with openCurly := true } }
    cases e : m { p with accept := { p.accept with openCurly := true } } with
    | stop s =>
      cases s with
      | assert => exact ⟨fun x => by (cases x), fun b q x => by (cases x)⟩
      | fuel => rw [h1 e]; exact ⟨fun _ => rfl, fun b q x => by (cases x)⟩
    | ok r q =>
      rcases h2 r q e with h | h <;> rw [h]
      · exact ⟨id, fun _ _ x => .inl x⟩
      · exact ⟨fun _ => rfl, fun _ _ _ => .inr rfl⟩

variable [Source σ]

/-- `go`, where calls that `dead` names end with `stop fuel`, and `stop assert` is the result if the depth is
not enough. -/
def goK (dead : Call → P σ → Bool) : Nat → (c : Call) → M σ c.Out
  | 0, c => fun p => if dead c p = true then .stop .fuel else .stop .assert
  | n + 1, c => fun p => if dead c p = true then .stop .fuel else body (goK dead n) c p

theorem goK_spec {dead : Call → P σ → Bool} (hd : ∀ c p, dead c p = true → ∀ n, go n c p = .stop .fuel) :
    ∀ m n c, Ka (goK dead m c) (go n c) := by
  intro m
  induction m with
  | zero =>
    intro n c p
    unfold goK
    by_cases h : dead c p = true
    · rw [hd c p h n]; exact ⟨fun _ => rfl, fun _ _ _ => .inr rfl⟩
    · simp only [h, if_false]
      exact ⟨fun x => by (cases x), fun b q x => by (cases x)⟩
  | succ m ih =>
    intro n c p
    by_cases h : dead c p = true
    · rw [hd c p h n]; exact ⟨fun _ => rfl, fun _ _ _ => .inr rfl⟩
    · have e : goK dead (m + 1) c p = body (goK dead m) c p := by
        show (if dead c p = true then _ else _) = _
        rw [if_neg h]
      rw [e]
      cases n with
      | zero => exact ⟨fun _ => rfl, fun _ _ _ => .inr rfl⟩
      | succ n => exact body_rel (L := kaRel σ) (fun c => ih n c) c p

theorem hangs {dead : Call → P σ → Bool} (hd : ∀ c p, dead c p = true → ∀ n, go n c p = .stop .fuel) {m : Nat}
    {p : P σ} (h : translationUnit (goK dead m) p = .stop .fuel) (n : Nat) :
    translationUnit (go n) p = .stop .fuel :=
  (translationUnit_rel (L := kaRel σ) (fun c => goK_spec hd m n c) p).1 h

/-! ## A parameter list that does not end -/

/-- The kinds of tokens that can be part of a parameter, or end it. -/
def paramTokens : List TT :=
  [.identifier, .tilde, .openParen, .star, .singleAmpersand, .doubleAmpersand, .ellipsis, .openSquare,
   .openCurly, .singleEqual, .singleColon, .closeParen, .comma, .endOfFile]

/-- The parser is at a token that can be nothing in a parameter list, and there is a restore point, made at
another token. -/
structure Stuck (t : Token) (p : P σ) : Prop where
  restore : p.restore = true
  here : p.queue[p.pos]? = some t
  vis : skipped t.type = false
  kind : t.type ∉ paramTokens
  stay : leaves p.accept t.type = false
  head : ∀ h ∈ p.queue.head?, h.loc ≠ t.loc

theorem read_here {t : Token} {p : P σ} (hr : p.restore = true) (h : p.queue[p.pos]? = some t)
    (hv : skipped t.type = false) : readToken p = .ok t { p with pos := p.pos + 1 } := by
  have hd : p.queue.drop p.pos = t :: p.queue.drop (p.pos + 1) := by
    obtain ⟨hlt, e⟩ := List.getElem?_eq_some_iff.mp h
    rw [List.drop_eq_getElem_cons hlt, e]
  unfold readToken
  rw [hd]
  unfold readQueued
  rw [if_neg (by rw [hr]; simp)]
  dsimp only
  rw [if_pos hr, if_neg (by rw [hv]; simp)]

omit [Source σ] in
theorem sameTok_self (t : Token) : sameTok t t = true := by
  unfold sameTok
  rw [if_neg (by simp)]
  split
  · simp
  · rfl

omit [Source σ] in
theorem push_here {t : Token} {p : P σ} {k : Nat} (hp : p.pos = k + 1) (h : p.queue[k]? = some t) :
    pushBack t p = .ok () { p with pos := k } := by
  unfold pushBack
  rw [if_pos (by omega)]
  have : p.pos - 1 = k := by omega
  rw [this, h]
  dsimp only
  rw [if_pos (sameTok_self t)]

theorem peek_here {t : Token} {p : P σ} (hr : p.restore = true) (h : p.queue[p.pos]? = some t)
    (hv : skipped t.type = false) : peek p = .ok t p := by
  unfold peek
  rw [bind_ok (read_here hr h hv), bind_ok (push_here (p := { p with pos := p.pos + 1 }) (k := p.pos) rfl h)]
  rfl

omit [Source σ] in
theorem ifp {β : Type} {c : Prop} [Decidable c] {a b : M σ β} {p : P σ} (h : c) : (if c then a else b) p = a p := by
  rw [if_pos h]

omit [Source σ] in
theorem ifn {β : Type} {c : Prop} [Decidable c] {a b : M σ β} {p : P σ} (h : ¬c) : (if c then a else b) p = b p := by
  rw [if_neg h]

omit [Source σ] in
theorem expected_quiet {p : P σ} {t : Token} {x : Exp} {u : Token} (h : p.restore = true) :
    expected t x u p = .ok () { p with raw := p.raw + 1 } := by
  unfold expected error modP
  dsimp only
  rw [if_pos h]

section
variable {t : Token} {p : P σ} (s : Stuck t p)
include s

omit [Source σ] in
theorem Stuck.ne {x : TT} (h : x ∈ paramTokens) : t.type ≠ x := fun e => s.kind (e ▸ h)

theorem Stuck.read : readToken p = .ok t { p with pos := p.pos + 1 } := read_here s.restore s.here s.vis

omit [Source σ] in
theorem Stuck.push : pushBack t { p with pos := p.pos + 1 } = .ok () p :=
  push_here (p := { p with pos := p.pos + 1 }) (k := p.pos) rfl s.here

omit [Source σ] in
theorem Stuck.raw (k : Nat) : Stuck t { p with raw := k } := ⟨s.restore, s.here, s.vis, s.kind, s.stay, s.head⟩

theorem Stuck.nested (n : Nat) : go (n + 1) (.nested []) p = .ok [] p := by
  refine (bind_ok s.read).trans ?_
  refine (ifp (s.ne (by decide))).trans ?_
  exact bind_ok s.push

theorem Stuck.unqual : (unqualName : M σ Unqual) p = .ok .empty p := by
  refine (bind_ok s.read).trans ?_
  refine (ifn (s.ne (by decide))).trans ?_
  refine (ifn (fun h => s.ne (x := .identifier) (by decide) h.1)).trans ?_
  exact bind_ok s.push

theorem Stuck.qid (n : Nat) : go (n + 2) (.qid .allowIncomplete) p = .ok (QId.mk [] .empty) p := by
  refine (bind_ok (s.nested n)).trans ?_
  exact bind_ok s.unqual

theorem Stuck.phase1 (n : Nat) :
    go (n + 3) (.phase1 true true [] false) p = .ok ({ chain := [], qid := .none } : Phase1) p := by
  refine (bind_ok (s.qid n)).trans ?_
  refine (ifn (by decide)).trans ?_
  refine (bind_ok s.read).trans ?_
  refine (ifn (s.ne (by decide))).trans ?_
  refine (ifn (by simp [QId.nested])).trans ?_
  refine (ifn ?_).trans ?_
  · rintro (h | h | h)
    · exact s.ne (by decide) h
    · exact s.ne (by decide) h
    · exact s.ne (by decide) h
  refine (ifn (s.ne (by decide))).trans ?_
  refine (ifn (s.ne (by decide))).trans ?_
  refine (bind_ok (a := ()) (q := { p with pos := p.pos + 1 }) rfl).trans ?_
  refine (ifn (by simp)).trans ?_
  exact bind_ok s.push

theorem Stuck.phase2 (n : Nat) : go (n + 1) (.phase2 [] 0 false) p = .ok [] p := by
  refine (bind_ok s.read).trans ?_
  refine (ifn (s.ne (by decide))).trans ?_
  refine (ifn (s.ne (by decide))).trans ?_
  exact bind_ok s.push

theorem Stuck.dcor (n : Nat) : go (n + 4) (.dcor [] true true) p = .ok (Dcor.mk [] .none) p := by
  refine (bind_ok (s.phase1 n)).trans ?_
  refine (ifn (by simp)).trans ?_
  exact bind_ok (s.phase2 (n + 2))

theorem Stuck.varInit (n : Nat) : variableInit (go n) p = .ok .none p := by
  refine (bind_ok s.read).trans ?_
  refine (ifn (s.ne (by decide))).trans ?_
  refine (ifn (s.ne (by decide))).trans ?_
  refine (ifn (s.ne (by decide))).trans ?_
  exact bind_ok s.push

theorem Stuck.specs (n : Nat) : go (n + 5) (.specs .param [] [] false) p =
    .ok (([], [.mk (.mk [] .none) .none noTok]) : List Spec × List InitDcor) { p with raw := p.raw + 1 } := by
  have s1 := s.raw (p.raw + 1)
  refine (bind_ok s.read).trans ?_
  refine (ifn (s.ne (by decide))).trans ?_
  refine (ifp rfl).trans ?_
  refine (bind_ok (expected_quiet (p := { p with pos := p.pos + 1 }) s.restore)).trans ?_
  refine (bind_ok s1.push).trans ?_
  refine (bind_ok (a := [.mk (.mk [] .none) .none noTok]) (q := { p with raw := p.raw + 1 }) ?_).trans ?_
  · refine (bind_ok (s1.dcor n)).trans ?_
    exact bind_ok (s1.varInit (n + 4))
  · rfl

theorem Stuck.specs' (n : Nat) : go n (.specs .param [] [] false) p = .stop .fuel ∨
    go n (.specs .param [] [] false) p =
      .ok (([], [.mk (.mk [] .none) .none noTok]) : List Spec × List InitDcor) { p with raw := p.raw + 1 } := by
  by_cases h : go n (.specs .param [] [] false) p = .stop .fuel
  · exact .inl h
  · right
    rw [← go_mono (Nat.le_add_right n 5) (.specs .param [] [] false) p h]
    exact s.specs n

theorem Stuck.act : activity p = .ok (p.raw, t.loc) p := by
  refine (bind_ok (show getP p = .ok p p from rfl)).trans ?_
  exact bind_ok (peek_here s.restore s.here s.vis)

omit [Source σ] in
theorem Stuck.consumed : anyTokensConsumed t.loc p = .ok false p := by
  have hh := s.head
  unfold anyTokensConsumed
  cases hq : p.queue with
  | nil => rfl
  | cons a l =>
    rw [hq] at hh
    have := hh a (by simp)
    simp [this]

omit [Source σ] in
theorem Stuck.okToStay {k : Nat} : CppParse.okToStay t { p with pos := k } = .ok true { p with pos := k } := by
  refine (bind_ok (show getP _ = .ok _ _ from rfl)).trans ?_
  refine (ifn (by rw [s.stay]; simp)).trans ?_
  have : t.type ≠ .endOfFile := s.ne (by decide)
  rw [decide_eq_true this]
  rfl

theorem Stuck.one (n : Nat) : oneParam (go n) false p = .stop .fuel ∨
    oneParam (go n) false p = .ok (some ⟨[], .mk [] .none, .none⟩, false) { p with raw := p.raw + 1 } := by
  have start : oneParam (go n) false p = _ :=
    (((bind_ok s.read).trans (ifn (fun h => s.ne (x := .ellipsis) (by decide) h.1))).trans (ifn (by simp))).trans
      ((bind_ok s.push).trans (bind_ok s.act))
  rcases s.specs' n with h | h
  · left
    refine start.trans ?_
    exact bind_stop h
  · right
    refine start.trans ?_
    refine (bind_ok h).trans ?_
    refine (bind_ok (a := true) (q := { p with raw := p.raw + 1 }) (by simp [failedSince])).trans ?_
    refine (ifn (by simp)).trans ?_
    refine (bind_ok (a := some (NewParam.mk [] (.mk [] .none) .none)) (q := { p with raw := p.raw + 1 }) rfl).trans ?_
    exact bind_ok (s.raw (p.raw + 1)).consumed

end

theorem Stuck.loop {t : Token} : ∀ n (p : P σ) acc, Stuck t p → go n (.paramLoop false acc) p = .stop .fuel := by
  intro n
  induction n with
  | zero => intros; rfl
  | succ n ih =>
    intro p acc s
    rcases s.one n with h | h
    · exact bind_stop h
    · have s1 := s.raw (p.raw + 1)
      have s2 := s.raw (p.raw + 2)
      refine (bind_ok h).trans ?_
      refine (bind_ok s1.read).trans ?_
      refine (ifn (s.ne (by decide))).trans ?_
      refine (ifn (s.ne (by decide))).trans ?_
      refine (bind_ok (expected_quiet (p := { p with pos := p.pos + 1, raw := p.raw + 1 }) s.restore)).trans ?_
      refine (ifn (by simp)).trans ?_
      refine (bind_ok s2.okToStay).trans ?_
      refine (ifp rfl).trans ?_
      refine (bind_ok s2.push).trans ?_
      exact ih _ _ s2

/-- Whether the parser is stuck in a parameter list. -/
def stuckCall (c : Call) (p : P σ) : Bool :=
  match c with
  | .paramLoop false _ =>
    match p.queue[p.pos]? with
    | none => false
    | some t =>
      p.restore && !skipped t.type && !decide (t.type ∈ paramTokens) && !leaves p.accept t.type &&
        (match p.queue.head? with
         | none => true
         | some h => decide (h.loc ≠ t.loc))
  | _ => false

theorem stuckCall_spec (c : Call) (p : P σ) (h : stuckCall c p = true) (n : Nat) : go n c p = .stop .fuel := by
  unfold stuckCall at h
  split at h
  · split at h
    · cases h
    · rename_i acc _ t ht
      simp only [Bool.and_eq_true, Bool.not_eq_true', decide_eq_false_iff_not] at h
      obtain ⟨⟨⟨⟨h1, h2⟩, h3⟩, h4⟩, h5⟩ := h
      refine Stuck.loop n p acc ⟨h1, ht, h2, h3, h4, ?_⟩
      intro a ha
      rw [Option.mem_def.mp ha] at h5
      simpa using h5
  · cases h

end Verif.CppParse

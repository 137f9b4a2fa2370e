import Verif.CppParse.LemmasDcor
/-! # The parser for C++ — lemmas: declarations -/
namespace Verif.CppParse
open Verif Verif.Cpp

section
variable {k : Nat} {pv : Option Token} {l : List Token}

/-! ## Scopes that are skipped -/

theorem Eats.cast {β : Type} {f : Rec → M Lim β} {b b' : β} {k' : Nat} {pv' : Option Token} {l' : List Token}
    (e : b = b') (h : Eats f k pv l b k' pv' l') : Eats f k pv l b' k' pv' l' := e ▸ h

/-- As `Eats`, where `>` is not a closing token. -/
def EatsF {β : Type} (f : Rec → M Lim β) (k : Nat) (pv : Option Token) (l : List Token) (b : β) (k' : Nat)
    (pv' : Option Token) (l' : List Token) : Prop :=
  ∀ p, At k pv l p → p.accept.closeAngle = false → p.angles = false → ∃ q, Run f p b q ∧ At k' pv' l' q ∧ Keep p q

theorem Eats.flat {β : Type} {f : Rec → M Lim β} {b : β} {k' : Nat} {pv' : Option Token} {l' : List Token}
    (h : Eats f k pv l b k' pv' l') : EatsF f k pv l b k' pv' l' := fun p hp _ _ => h p hp

theorem EatsF.bind {α β : Type} {f : Rec → M Lim α} {g : Rec → α → M Lim β} {a : α} {b : β}
    {k' k'' : Nat} {pv' pv'' : Option Token} {l' l'' : List Token}
    (h : EatsF f k pv l a k' pv' l') (h' : EatsF (fun x => g x a) k' pv' l' b k'' pv'' l'') :
    EatsF (fun x => f x >>= g x) k pv l b k'' pv'' l'' := by
  intro p hp ha hb
  obtain ⟨q, r, hq, kp⟩ := h p hp ha hb
  obtain ⟨q', r', hq', kp'⟩ := h' q hq (by rw [kp.accept]; exact ha) (by rw [kp.angles]; exact hb)
  exact ⟨q', r.bind r', hq', kp.trans kp'⟩

theorem EatsF.call {c : Call} {b : c.Out} {k' : Nat} {pv' : Option Token} {l' : List Token}
    (h : EatsF (fun x => body x c) k pv l b k' pv' l') : EatsF (fun x => x c) k pv l b k' pv' l' := by
  intro p hp ha hb
  obtain ⟨q, r, hq⟩ := h p hp ha hb
  exact ⟨q, r.call, hq⟩

theorem EatsF.ifn {β : Type} {c : Prop} [Decidable c] {f g : Rec → M Lim β} {b : β} {k' : Nat}
    {pv' : Option Token} {l' : List Token} (hc : ¬c) (h : EatsF g k pv l b k' pv' l') :
    EatsF (fun x => if c then f x else g x) k pv l b k' pv' l' := by
  simp only [if_neg hc]; exact h

/-- A scope that is not in angle brackets. -/
theorem EatsF.scope {β : Type} {f : Rec → M Lim β} {b : β} {t : TT} {k' : Nat} {pv' : Option Token}
    {l' : List Token} (ht : t = .openCurly ∨ t = .openParen ∨ t = .openSquare) (h : EatsF f k pv l b k' pv' l') :
    Eats (fun x => inScope t (f x)) k pv l b k' pv' l' := by
  intro p hp
  obtain ⟨a, ha, h1, h2⟩ : ∃ a, scopeFlags p.accept t = some a ∧ a.1.closeAngle = false ∧ a.2 = false := by
    rcases ht with rfl | rfl | rfl <;> exact ⟨_, rfl, rfl, rfl⟩
  obtain ⟨q, ⟨N, r⟩, hq, kp⟩ := h { p with accept := a.1, angles := a.2 }
    ⟨⟨hp.between.start, hp.between.bound⟩, hp.ahead, hp.mute, hp.low, hp.last, scopeFlags_curly hp.curly ha, hp.raw⟩ h1 h2
  refine ⟨{ q with accept := p.accept, angles := p.angles }, ⟨N, fun n hn => ?_⟩,
    ⟨⟨hq.between.start, hq.between.bound⟩, hq.ahead, hq.mute, hq.low, hq.last, hp.curly, hq.raw⟩,
    ⟨kp.restore, rfl, rfl, kp.raw, kp.errs, kp.seen, kp.grow⟩⟩
  show CppParse.inScope t (f (go n)) p = _
  unfold CppParse.inScope
  rw [ha]
  obtain ⟨a1, a2⟩ := a
  dsimp only at r ⊢
  rw [r n hn]

theorem stay_p {t : Token}
    (ht : t.type ∉ [TT.closeCurly, .closeParen, .closeSquare, .endOfFile]) :
    EatsF (fun _ => okToStay t) k pv l true k pv l := by
  intro p hp ha hb
  refine ⟨p, .of ?_, hp, .refl p⟩
  simp only [List.mem_cons, List.not_mem_nil, or_false, not_or] at ht
  have hl : leaves p.accept t.type = false := by
    have hc := hp.curly
    unfold leaves
    split <;> first | exact hc | exact ha | rfl | (simp_all)
  refine (bind_ok (show getP p = .ok p p from rfl)).trans ?_
  refine (CppParse.ifn (by rw [hl]; simp)).trans ?_
  simp [ht, Pure.pure]

theorem skipIf_tok {t : Token}
    (ht : t.type ∉ [TT.openCurly, .closeCurly, .openParen, .closeParen, .openSquare, .closeSquare, .endOfFile]) :
    EatsF (fun x => skipIfOpen x t) k pv l none k pv l := by
  intro p hp ha hb
  refine ⟨p, ⟨0, fun n _ => ?_⟩, hp, .refl p⟩
  simp only [List.mem_cons, List.not_mem_nil, or_false, not_or] at ht
  refine (bind_ok (show getP p = .ok p p from rfl)).trans ?_
  rw [if_neg (by rw [hb]; simp)]
  refine congrFun (?_ : _ = (pure none : M Lim (Option Token))) p
  split <;> first | rfl | simp_all

theorem skipIf_open {o : Token} {b : Option Token} {k' : Nat} {pv' : Option Token} {l' : List Token}
    (ho : o.type = .openCurly ∨ o.type = .openParen ∨ o.type = .openSquare)
    (h : Eats (fun x => skipAny x o) k pv l b k' pv' l') : Eats (fun x => skipIfOpen x o) k pv l b k' pv' l' := by
  intro p hp
  obtain ⟨q, ⟨N, r⟩, hq⟩ := h p hp
  refine ⟨q, ⟨N, fun n hn => ?_⟩, hq⟩
  refine (bind_ok (show getP p = .ok p p from rfl)).trans ?_
  rcases ho with ho | ho | ho <;> rw [ho] <;> exact r n hn

/-- The tokens in a scope are skipped, up to the closing token. -/
theorem skipLoop_p {w : List Token} (h : Bal w) : ∀ {o c : Token} {l : List Token} {k : Nat} {pv : Option Token},
    o.type = .openCurly ∨ o.type = .openParen ∨ o.type = .openSquare → c.type = closing o.type →
    EatsF (fun x => x (.skipLoop o)) k pv (w ++ c :: l) (some c) 1 none l := by
  have inner : ∀ {o c o' c' : Token} {w w' l : List Token} {k : Nat} {pv : Option Token},
      o'.type = .openCurly ∨ o'.type = .openParen ∨ o'.type = .openSquare →
      o.type = .openCurly ∨ o.type = .openParen ∨ o.type = .openSquare →
      (∀ k pv l, EatsF (fun x => x (.skipLoop o')) k pv (w ++ c' :: l) (some c') 1 none l) →
      (∀ k pv l, EatsF (fun x => x (.skipLoop o)) k pv (w' ++ c :: l) (some c) 1 none l) →
      EatsF (fun x => x (.skipLoop o)) k pv (o' :: (w ++ c' :: w') ++ c :: l) (some c) 1 none l := by
    intro o c o' c' w w' l k pv ho' ho h1 h2
    refine EatsF.call (c := .skipLoop o) ?_
    show EatsF (fun x => skipLoopBody x o) _ _ _ _ _ _ _
    unfold skipLoopBody
    rw [List.cons_append, List.append_assoc, List.cons_append]
    refine (Eats.read (by rcases ho' with h | h | h <;> exact seen_of h rfl)).flat.bind ?_
    refine EatsF.ifn (by rcases ho' with h | h | h <;> rcases ho with h' | h' | h' <;> rw [h, h'] <;> decide) ?_
    refine (stay_p (by rcases ho' with h | h | h <;> simp [h])).bind ?_
    refine EatsF.ifn (by simp) ?_
    refine (skipIf_open ho' (EatsF.scope ho' (h1 _ _ _))).flat.bind ?_
    exact h2 _ _ _
  induction h with
  | nil =>
    intro o c l k pv ho hc
    refine EatsF.call (c := .skipLoop o) ?_
    show EatsF (fun x => skipLoopBody x o) _ _ _ _ _ _ _
    unfold skipLoopBody
    refine Eats.flat ?_
    refine (Eats.read (by rcases ho with h | h | h <;> rw [hc, h] <;> rfl)).bind ?_
    exact Eats.ifp hc (Eats.ret (by omega))
  | tok hv ht r ih =>
    intro o c l k pv ho hc
    refine EatsF.call (c := .skipLoop o) ?_
    show EatsF (fun x => skipLoopBody x o) _ _ _ _ _ _ _
    unfold skipLoopBody
    refine (Eats.read hv).flat.bind ?_
    have ht' := ht
    simp only [List.mem_cons, List.not_mem_nil, or_false, not_or] at ht'
    refine EatsF.ifn (by rcases ho with h | h | h <;> rw [h] <;> simp [closing, ht']) ?_
    refine (stay_p (by simp [ht'])).bind ?_
    refine EatsF.ifn (by simp) ?_
    refine (skipIf_tok ht).bind ?_
    exact ih ho hc
  | curly ho' hc' h r ih ih' =>
    intro o c l k pv ho hc
    exact inner (Or.inl ho') ho (fun _ _ _ => ih (Or.inl ho') (by rw [ho', hc']; rfl)) (fun _ _ _ => ih' ho hc)
  | paren ho' hc' h r ih ih' =>
    intro o c l k pv ho hc
    exact inner (Or.inr (Or.inl ho')) ho (fun _ _ _ => ih (Or.inr (Or.inl ho')) (by rw [ho', hc']; rfl))
      (fun _ _ _ => ih' ho hc)
  | square ho' hc' h r ih ih' =>
    intro o c l k pv ho hc
    exact inner (Or.inr (Or.inr ho')) ho (fun _ _ _ => ih (Or.inr (Or.inr ho')) (by rw [ho', hc']; rfl))
      (fun _ _ _ => ih' ho hc)

theorem skipAny_p {o c : Token} {w : List Token} (h : Bal w)
    (ho : o.type = .openCurly ∨ o.type = .openParen ∨ o.type = .openSquare) (hc : c.type = closing o.type) :
    Eats (fun x => skipAny x o) k pv (w ++ c :: l) (some c) 1 none l :=
  EatsF.scope ho (skipLoop_p h ho hc)

/-! ## The end of a function -/

theorem semi_p {s : Token} (h : s.type = .semicolon) :
    Eats (fun _ => requiredSemicolon) k pv (s :: l) s 1 none l := by
  unfold requiredSemicolon
  refine (Eats.read (seen_of h rfl)).bind ?_
  exact Eats.ifp h (Eats.unmute.bind (Eats.ret (by omega)))

/-- The end of a function is read: its body or initializer, and then the semicolon, if there is one. -/
theorem funcEnd_p {i : Init} {semi : Token} {w : List Token} (h : FuncEndT i semi w) (l : List Token) :
    (∃ g v, w ++ l = g :: v ∧ SufEnd g) ∧ ∃ l', (∀ k pv, 1 ≤ k → Eats (fun x => functionBody x) k pv (w ++ l) i 1 none l') ∧
      ∀ pv, Eats (fun _ => if (!i.isBody) = true then requiredSemicolon else pure noTok) 1 pv l' semi 1 none l := by
  cases h with
  | semi h =>
    refine ⟨⟨_, _, rfl, by simp [SufEnd, h]⟩, semi :: l, fun k pv hk => ?_, fun pv => ?_⟩
    · unfold functionBody
      refine (Eats.read (seen_of h rfl)).bind ?_
      refine Eats.ifn (by simp [h]) ?_
      refine Eats.ifn (by simp [h]) ?_
      refine Eats.ifn (by simp [h]) ?_
      exact Eats.push.bind (Eats.ret hk)
    · exact Eats.ifp (by rfl) (semi_p h)
  | assign h r hs =>
    rename_i eq s e w
    refine ⟨⟨_, _, rfl, by simp [SufEnd, h]⟩, semi :: l, fun k pv hk => ?_, fun pv => ?_⟩
    · unfold functionBody
      refine (Eats.read (seen_of h rfl)).bind ?_
      refine Eats.ifp h ?_
      rw [show (w ++ [semi]).append l = w ++ semi :: l by simp]
      exact ((expr_p r).2 false semi l (by simp [ExprEnd, hs]) _ _).bind (Eats.ret (Nat.le_refl _))
    · exact Eats.ifp (by rfl) (semi_p hs)
  | body ho hb hc =>
    rename_i o c w
    refine ⟨⟨_, _, rfl, by simp [SufEnd, ho]⟩, l, fun k pv hk => ?_, fun pv => ?_⟩
    · unfold functionBody
      refine (Eats.read (seen_of ho rfl)).bind ?_
      refine Eats.ifn (by simp [ho]) ?_
      refine Eats.ifn (by simp [ho]) ?_
      refine Eats.ifp ho ?_
      rw [show (w ++ [c]).append l = w ++ c :: l by simp]
      exact (skipAny_p hb (Or.inl ho) (by rw [ho, hc]; rfl)).bind (Eats.ret (Nat.le_refl _))
    · exact Eats.ifn (by simp [Init.isBody]) (Eats.ret (Nat.le_refl _))

/-! ## Declarators -/

theorem dcor_start {d : Dcor} {w : List Token} (h : DcorT d w) (l : List Token) :
    d.qid.isEmpty = false ∧ ∃ g v, w ++ l = g :: v ∧
      (Name g ∨ Word (bs ['o', 'p', 'e', 'r', 'a', 't', 'o', 'r']) g ∨ g.type ∈ [TT.star, .singleAmpersand, .doubleAmpersand, .tilde]) := by
  obtain ⟨hp, hn, hu, hf⟩ := h
  refine ⟨by cases hu <;> simp [Dcor.qid, QId.isEmpty, QId.unqual, Unqual.isEmpty], ?_⟩
  cases hp with
  | star h r => exact ⟨_, _, rfl, by simp [h]⟩
  | ref h r => exact ⟨_, _, rfl, by rcases h with h | h <;> simp [h]⟩
  | nil =>
    cases hn with
    | ident h => exact ⟨_, _, rfl, Or.inl h⟩
    | tmpl h => exact ⟨_, _, rfl, Or.inl h⟩
    | nil =>
      cases hu with
      | ident h => exact ⟨_, _, rfl, Or.inl h⟩
      | dtor h => exact ⟨_, _, rfl, by simp [h]⟩
      | op h => exact ⟨_, _, rfl, Or.inr (Or.inl h)⟩
      | opCall h => exact ⟨_, _, rfl, Or.inr (Or.inl h)⟩
      | opIndex h => exact ⟨_, _, rfl, Or.inr (Or.inl h)⟩

theorem dcor_p {d : Dcor} {w : List Token} (h : DcorT d w) {f : Token} {abs : Bool} (hf : SufEnd f) (hk : 1 ≤ k) :
    Eats (fun x => x (.dcor [] true abs)) k pv (w ++ f :: l) d 1 none (f :: l) := by
  obtain ⟨hp, hn, hu, hs⟩ := h
  simp only [List.append_assoc]
  exact dcor_named hp hn hu (sufs_p hs) hf hk

/-- Declarators of variables. -/
theorem vars_p {ds : List InitDcor} {w : List Token} (h : VarsT ds w) : ∀ {acc : List InitDcor} {f : Token}
    {l : List Token} {k : Nat} {pv : Option Token}, f.type = .semicolon → 1 ≤ k →
    Eats (fun x => x (.initDcors acc)) k pv (w ++ f :: l) (acc ++ ds : List InitDcor) 1 none (f :: l) := by
  have one : ∀ {acc : List InitDcor} {d : Dcor} {i : Init} {w w' l l' : List Token} {f : Token} {k : Nat}
      {pv : Option Token} {b : List InitDcor}, DcorT d w → d.isFunction = false → InitT i w' →
      f.type = .semicolon ∨ f.type = .comma → 1 ≤ k →
      (∀ pv, Eats (fun x => do
        let s ← readToken
        if s.type = .comma then x (.initDcors (acc ++ [.mk d i s]))
        else
          pushBack s
          return acc ++ [.mk d i noTok]) 1 pv (f :: l) b 1 none l') →
      Eats (fun x => x (.initDcors acc)) k pv (w ++ (w' ++ f :: l)) b 1 none l' := by
    intro acc d i w w' l l' f k pv b hd hv hi hf hk h
    refine Eats.call (c := .initDcors acc) ?_
    show Eats (fun x => initDcorsBody x acc) _ _ _ _ _ _ _
    unfold initDcorsBody
    obtain ⟨g, v, e, hg⟩ := init_start hi f l
    have hg : SufEnd g := by
      rcases hg with rfl | h
      · rcases hf with h | h <;> simp [SufEnd, h]
      · simp [SufEnd, h]
    rw [e]
    refine (dcor_p hd hg hk).bind ?_
    refine Eats.ifn (by simp [(dcor_start hd []).1]) ?_
    refine Eats.ifn (by simp [hv]) ?_
    rw [← e]
    refine (init_p hi (by rcases hf with h | h <;> simp [ExprEnd, h]) (Nat.le_refl _)).bind ?_
    exact h _
  induction h with
  | last hd hv hi =>
    intro acc f l k pv hf hk
    rw [List.append_assoc]
    refine one hd hv hi (Or.inl hf) hk (fun pv => ?_)
    refine (Eats.read (seen_of hf rfl)).bind ?_
    exact Eats.ifn (by simp [hf]) (Eats.push.bind (Eats.ret (Nat.le_refl _)))
  | more hd hv hi hm r ih =>
    intro acc f l k pv hf hk
    rw [List.append_assoc, List.append_assoc, List.cons_append]
    refine one hd hv hi (Or.inr hm) hk (fun pv => ?_)
    refine (Eats.read (seen_of hm rfl)).bind ?_
    refine Eats.ifp hm ?_
    refine Eats.cast ?_ (ih (acc := acc ++ [.mk _ _ _]) hf (by omega))
    simp

/-! ## The name of a type in a declaration -/

/-- After the name of the class, a parameter list is tried; if there is none, the parser goes back. -/
theorem try_fails {β : Type} {g : Token} {b : β} {k' : Nat} {pv' : Option Token} {l' : List Token}
    {h : Rec → RP → Option (Params × List Token) → M Lim β} {c : Rec → M Lim β}
    (hv : skipped g.type = false) (hg : g.type ≠ .openParen) (hk : 1 ≤ k)
    (hc : Eats c k none (g :: l) b k' pv' l') :
    Eats (fun x => mark >>= fun rp => parameterList x >>= fun f => failedSince rp.raw >>= fun failed =>
      if failed = false then h x rp f else rp.backtrack >>= fun _ => rp.cancel >>= fun _ => c x)
      k pv (g :: l) b k' pv' l' := by
  intro p hp
  have hm : mark p = .ok ⟨p.restore, p.pos, p.raw⟩ { p with restore := true } := by
    unfold mark
    rw [if_neg]
    rintro ⟨h1, h2⟩
    exact h2 (hp.between.start h1)
  obtain ⟨q, ⟨N, r⟩, hq, kp⟩ := Eats.read (k := 0) (pv := none) (l := l) hv { p with restore := true }
    ⟨⟨fun x => (by cases x), hp.between.bound⟩, hp.ahead, hp.mute, fun _ => Nat.zero_le _, fun _ t e => (by cases e),
      hp.curly, hp.raw⟩
  have r := r N (Nat.le_refl _)
  obtain ⟨x, hx1, hx2⟩ := kp.grow rfl
  dsimp only at hx1 hx2
  have hqr : q.restore = true := kp.restore
  obtain ⟨h1, h2⟩ := hq.last hqr g rfl
  obtain ⟨j, hj⟩ : ∃ j, q.pos = j + 1 := ⟨q.pos - 1, by omega⟩
  rw [hj] at h2
  simp only [Nat.add_sub_cancel] at h2
  have hpl : ∀ n, parameterList (go n) { p with restore := true } = .ok none { q with raw := q.raw + 1, pos := j } := by
    intro n
    refine (bind_ok r).trans ?_
    refine (CppParse.ifp hg).trans ?_
    refine (bind_ok (show getP q = .ok q q from rfl)).trans ?_
    refine (bind_ok (show check q.restore q = .ok () q by unfold check; rw [if_pos hqr])).trans ?_
    refine (bind_ok (show expected g .openParen {} q = .ok () { q with raw := q.raw + 1 } from ?_)).trans ?_
    · show R.ok _ _ = _
      dsimp only
      rw [if_pos hqr]
    refine (bind_ok (push_here (p := { q with raw := q.raw + 1 }) hj h2)).trans ?_
    rfl
  have hs : ∃ s, (RP.mk p.restore p.pos p.raw).cancel { q with pos := p.pos, raw := p.raw } = .ok () s ∧
      At k none (g :: l) s ∧ Keep p s := by
    have ha : q.queue.drop p.pos ++ q.src.l = g :: l := by
      rw [hx1, List.drop_append_of_le_length hp.between.bound, List.append_assoc, ← hx2]
      exact hp.ahead
    unfold RP.cancel
    rw [if_neg (by simp)]
    dsimp only
    by_cases h0 : p.pos = 0
    · have hr : p.restore = false := by
        cases hr : p.restore with
        | false => rfl
        | true => have := hp.low hr; omega
      rw [if_pos h0, if_neg (by rw [hr]; simp)]
      refine ⟨_, rfl, ⟨⟨fun _ => rfl, Nat.zero_le _⟩, by simpa using ha, hq.mute, fun h => ?_, fun h => ?_, hq.curly, hp.raw⟩,
        ⟨rfl, kp.accept, kp.angles, rfl, kp.errs, kp.seen, fun h => ?_⟩⟩
      · dsimp only at h; rw [hr] at h; cases h
      · dsimp only at h; rw [hr] at h; cases h
      · rw [hr] at h; cases h
    · have hr : p.restore = true := by
        cases hr : p.restore with
        | true => rfl
        | false => exact absurd (hp.between.start hr) h0
      rw [if_neg h0]
      refine ⟨_, rfl, ⟨⟨fun h => ?_, ?_⟩, ha, hq.mute, fun _ => hp.low hr, fun _ t e => (by cases e), hq.curly, hp.raw⟩,
        ⟨rfl, kp.accept, kp.angles, rfl, kp.errs, kp.seen, fun _ => ⟨x, hx1, hx2⟩⟩⟩
      · dsimp only at h; rw [hr] at h; cases h
      · dsimp only
        rw [hx1, List.length_append]
        have := hp.between.bound
        omega
  obtain ⟨s, hcan, hs, ks⟩ := hs
  obtain ⟨w, ⟨N', r'⟩, hw, kw⟩ := hc s hs
  refine ⟨w, ⟨N', fun n hn => ?_⟩, hw, ks.trans kw⟩
  refine (bind_ok hm).trans ?_
  refine (bind_ok (hpl n)).trans ?_
  refine (bind_ok (show failedSince p.raw { q with raw := q.raw + 1, pos := j } =
    .ok true { q with raw := q.raw + 1, pos := j } from ?_)).trans ?_
  · unfold failedSince
    have : q.raw = p.raw := kp.raw
    simp [this]
  refine (CppParse.ifn (by simp)).trans ?_
  refine (bind_ok (show (RP.mk p.restore p.pos p.raw).backtrack { q with raw := q.raw + 1, pos := j } =
    .ok () { q with pos := p.pos, raw := p.raw } from rfl)).trans ?_
  refine (bind_ok hcan).trans ?_
  exact r' n hn

theorem typeSpec_global {cls : List Byte} {acc : List Spec} {q : QId} {g : Token} (hv : skipped g.type = false)
    (hg : g.type ≠ .openParen) (hk : 1 ≤ k) {b : List Spec × List InitDcor} {k' : Nat} {pv' : Option Token}
    {l' : List Token}
    (h : ∀ pv, Eats (fun x => x (.specs .globalOrMember cls (acc ++ [.typeId noTok q]) true)) k pv (g :: l) b k' pv' l') :
    Eats (fun x => typeSpec x .globalOrMember cls acc noTok q) k pv (g :: l) b k' pv' l' := by
  unfold typeSpec
  by_cases hc : looksLikeCtorDtor cls q = true
  · refine Eats.ifp (by simp [hc, valid, noTok]) ?_
    refine try_fails hv hg hk ?_
    refine (Eats.pure none).bind ?_
    exact Eats.ifn (by simp [valid, noTok]) (h _)
  · refine Eats.ifn (by simp [hc]) ?_
    refine (Eats.pure _).bind ?_
    exact Eats.ifn (by simp [valid, noTok]) (h _)

/-- Specifiers in a declaration, and what follows. -/
theorem specs_global {specs : List Spec} {w : List Token} (hs : SpecsT specs w) {cls : List Byte} {g : Token}
    {b : List InitDcor} {l' : List Token}
    (hg : Name g ∨ Word (bs ['o', 'p', 'e', 'r', 'a', 't', 'o', 'r']) g ∨ g.type ∈ [TT.star, .singleAmpersand, .doubleAmpersand, .tilde])
    (h : ∀ pv, Eats (fun x => x (.initDcors [])) 1 pv (g :: l) b 1 none l') :
    Eats (fun x => x (.specs .globalOrMember cls [] false)) k pv (w ++ g :: l) (specs, b) 1 none l' := by
  have hge : NameEnd g ∧ g.type ≠ .openParen := by
    rcases hg with h | h | h
    · exact ⟨⟨h.seen, by simp [h.1], by simp [h.1]⟩, by simp [h.1]⟩
    · exact ⟨⟨seen_of h.1 rfl, by simp [h.1], by simp [h.1]⟩, by simp [h.1]⟩
    · simp only [List.mem_cons, List.not_mem_nil, or_false] at h
      rcases h with h | h | h | h <;> exact ⟨⟨seen_of h rfl, by simp [h], by simp [h]⟩, by simp [h]⟩
  obtain ⟨k1, q, w', k2, rfl, rfl, hk, ⟨ns, u, w1, w2, rfl, rfl, hn, hu⟩, hk2⟩ := hs
  have hup := unq_p hu
  simp only [List.append_assoc]
  refine specs_kws hk (fun j pv hj => ?_)
  obtain ⟨f, v, ef, hf⟩ : ∃ f v, k2 ++ g :: l = f :: v ∧ (NameEnd f ∧ f.type ≠ .openParen) := by
    cases k2 with
    | nil => exact ⟨g, l, rfl, hge⟩
    | cons t k2 =>
      have := (hk2 t (by simp)).1
      exact ⟨t, _, rfl, ⟨seen_of this rfl, by simp [this], by simp [this]⟩, by simp [this]⟩
  obtain ⟨n, v', e, hname⟩ := first_name hn hup.2.1 (k2 ++ g :: l)
  rw [e]
  refine specs_name (l := k2 ++ g :: l) hname (q := .mk ns u) (fun k pv => ?_) ?_ ?_
  · rw [← e, ef]
    exact qid_name (comps_p hn) hup hf.1
  · simp [QId.isEmpty, QId.unqual, hup.1]
  · rw [ef]
    refine typeSpec_global hf.1.seen hf.2 (Nat.le_refl _) (fun pv => ?_)
    rw [← ef]
    refine specs_kws hk2 (fun j pv hj => ?_)
    have e2 : [] ++ k1.map Spec.keyword ++ [.typeId noTok (.mk ns u)] ++ k2.map Spec.keyword =
      k1.map Spec.keyword ++ .typeId noTok (.mk ns u) :: k2.map Spec.keyword := by simp
    rw [e2]
    have hend : ∀ pv, Eats (fun x => parseInitDcors x .globalOrMember) j pv (g :: l) b 1 none l' :=
      fun pv => (h none).weaken hj (Nat.le_refl _)
    rcases hg with h' | h' | h'
    · exact specs_end_name (Or.inl h') hend
    · exact specs_end_name (Or.inr h') hend
    · exact specs_end hge.1.seen (by rintro h; simp [h] at h') hend

/-! ## Declarations of functions, constructors and destructors -/

theorem func_p {d : Dcor} {w w' l l' : List Token} {i : Init} (hd : DcorT d w) (hf : d.isFunction = true)
    (hs : ∃ g v, w' ++ l = g :: v ∧ SufEnd g)
    (h : ∀ k pv, 1 ≤ k → Eats (fun x => functionBody x) k pv (w' ++ l) i 1 none l') (hk : 1 ≤ k) :
    Eats (fun x => x (.initDcors [])) k pv (w ++ (w' ++ l)) [.mk d i noTok] 1 none l' := by
  refine Eats.call (c := .initDcors []) ?_
  show Eats (fun x => initDcorsBody x []) _ _ _ _ _ _ _
  unfold initDcorsBody
  obtain ⟨g, v, e, hg⟩ := hs
  rw [e]
  refine (dcor_p hd hg hk).bind ?_
  refine Eats.ifn (by simp [(dcor_start hd []).1]) ?_
  refine Eats.ifp hf ?_
  rw [← e]
  refine (h _ _ (Nat.le_refl _)).bind ?_
  exact Eats.ifn (by simp) (Eats.ret (Nat.le_refl _))

/-- Without a type, a destructor may follow. -/
theorem specs_tilde {f : Token} {cls : List Byte} {acc : List Spec} {b : List InitDcor} {k' : Nat}
    {l' : List Token} (hf : f.type = .tilde)
    (h : ∀ pv, Eats (fun x => x (.initDcors [])) k pv (f :: l) b k' none l') :
    Eats (fun x => x (.specs .globalOrMember cls acc false)) k pv (f :: l) (acc, b) k' none l' := by
  refine Eats.call (c := .specs .globalOrMember cls acc false) ?_
  show Eats (fun x => specsBody x .globalOrMember cls acc false) _ _ _ _ _ _ _
  unfold specsBody
  refine (Eats.read (seen_of hf rfl)).bind ?_
  refine Eats.ifn (by simp [hf]) ?_
  refine Eats.ifp rfl ?_
  refine (Eats.pure ()).bind ?_
  exact Eats.push.bind ((h _).bind (Eats.ret (Nat.le_refl _)))

/-- A constructor. -/
theorem typeSpec_ctor {n : Token} {acc : List Spec} {pl : Params} {quals w w' l' : List Token} {i : Init}
    (h0 : n.text ≠ []) (hp : ParamsT pl w) (hq : QualsT quals) (hs : ∃ g v, w' ++ l = g :: v ∧ SufEnd g)
    (h : ∀ k pv, 1 ≤ k → Eats (fun x => functionBody x) k pv (w' ++ l) i 1 none l') (hk : 1 ≤ k) :
    Eats (fun x => typeSpec x .globalOrMember n.text acc noTok (.mk [] (.ident n))) k pv (w ++ (quals ++ (w' ++ l)))
      (acc, [.mk (.mk [.func pl quals noTok .none] (.mk [] (.ident n))) i noTok]) 1 none l' := by
  unfold typeSpec
  refine Eats.ifp (by simp [looksLikeCtorDtor, h0, valid, noTok, QId.nested, QId.unqual, Unqual.ctorDtorName]) ?_
  obtain ⟨g, v, e, hg⟩ := hs
  rw [e]
  refine Eats.region (a := some (pl, quals)) (k' := 1) (pv' := none) (l' := g :: v) hk (Nat.le_refl _)
    (f := fun x => parameterList x)
    (h := fun x => functionBody x >>= fun i =>
      pure (acc, [.mk (.mk [.func pl quals noTok .none] (.mk [] (.ident n))) i noTok])) ?_ ?_ ?_
  · exact parameterList_p (params_p hp) hq hg.qual
  · intro r n p q s hr hq hf hc
    refine (bind_ok hf).trans ?_
    refine (bind_ok (show failedSince r.raw q = .ok false q by unfold failedSince; simp [hr, hq])).trans ?_
    refine (CppParse.ifp rfl).trans ?_
    exact (bind_ok hc)
  · rw [← e]
    exact (h _ _ (Nat.le_refl _)).bind (Eats.ret (Nat.le_refl _))

/-! ## Simple declarations -/

theorem simple_p {cls : List Byte} {specs : List Spec} {ds : List InitDcor} {semi t : Token} {v l l' : List Token}
    (hv : skipped t.type = false) (hk : 1 ≤ k)
    (hs : ∀ k pv, 1 ≤ k →
      Eats (fun x => x (.specs .globalOrMember cls [] false)) k pv (t :: v) (specs, ds) 1 none l')
    (hd : ds.isEmpty = false ∨ specs.any Spec.isType = true)
    (he : ∀ pv, Eats (fun _ => if needsSemicolon ds = true then requiredSemicolon else pure noTok) 1 pv l' semi 1 none l) :
    Eats (fun x => simpleDeclaration x cls) k pv (t :: v) (.simple specs ds semi) 1 none l := by
  unfold simpleDeclaration
  refine (Eats.peek hv).bind ?_
  refine (Eats.activity hv).bind ?_
  refine (hs _ _ hk).bind ?_
  refine Eats.failedSince.bind ?_
  refine Eats.ifp rfl ?_
  refine Eats.unmute.bind ?_
  refine Eats.ifn (by rcases hd with h | h <;> simp_all) ?_
  by_cases hn : needsSemicolon ds = true
  · have he := he none
    simp only [if_pos hn] at he
    exact Eats.ifp hn (he.bind (Eats.ret (Nat.le_refl _)))
  · have he := he none
    simp only [if_neg hn] at he
    exact Eats.ifn hn (he.bind (Eats.ret (Nat.le_refl _)))

/-- The words with which declarations begin that are not simple. -/
def declWords : List (List Byte) :=
  (bs ['e', 'x', 't', 'e', 'r', 'n']) :: accessWords ++ [(bs ['s', 't', 'a', 't', 'i', 'c', '_', 'a', 's', 's', 'e', 'r', 't']), (bs ['n', 'a', 'm', 'e', 's', 'p', 'a', 'c', 'e']), (bs ['t', 'e', 'm', 'p', 'l', 'a', 't', 'e']), (bs ['u', 's', 'i', 'n', 'g'])]

theorem decl_simple {cls : List Byte} {t : Token} {v l : List Token} {d : Decl}
    (ht : (t.type = .identifier ∧ t.text ∉ declWords) ∨ t.type = .tilde)
    (h : Eats (fun x => simpleDeclaration x cls) k none (t :: v) d 1 none l) :
    Eats (fun x => x (.decl cls)) k pv (t :: v) (true, some d) 1 none l := by
  refine Eats.call (c := .decl cls) ?_
  show Eats (fun x => declBody x cls) _ _ _ _ _ _ _
  unfold declBody
  rcases ht with ⟨ht, hw⟩ | ht
  · refine (Eats.read (seen_of ht rfl)).bind ?_
    refine Eats.ifp ht ?_
    simp only [declWords, List.cons_append, List.mem_cons, List.mem_append, not_or, List.not_mem_nil,
      not_false_eq_true, and_true] at hw
    obtain ⟨h1, h2, h3, h4, h5, h6⟩ := hw
    refine Eats.ifn h1 ?_
    refine Eats.ifn h2 ?_
    refine Eats.ifn h3 ?_
    refine Eats.ifn h4 ?_
    refine Eats.ifn h5 ?_
    refine Eats.ifn h6 ?_
    exact Eats.push.bind (h.bind (Eats.ret (Nat.le_refl _)))
  · refine (Eats.read (seen_of ht rfl)).bind ?_
    refine Eats.ifn (by simp [ht]) ?_
    refine Eats.ifn (by simp [ht]) ?_
    refine Eats.ifp ht ?_
    exact Eats.push.bind (h.bind (Eats.ret (Nat.le_refl _)))

/-- A declaration that begins with one of the other words. -/
theorem decl_word {cls : List Byte} {t : Token} {v l : List Token} {d : Decl} (ht : t.type = .identifier)
    (h : (t.text = (bs ['e', 'x', 't', 'e', 'r', 'n']) ∧ Eats (fun x => externDecl x cls t) (k + 1) (some t) v d 1 none l) ∨
      (t.text ∈ accessWords ∧ Eats (fun _ => accessDecl t) (k + 1) (some t) v (some d) 1 none l) ∨
      (t.text = (bs ['s', 't', 'a', 't', 'i', 'c', '_', 'a', 's', 's', 'e', 'r', 't']) ∧ Eats (fun x => staticAssertDecl x t) (k + 1) (some t) v (some d) 1 none l) ∨
      (t.text = (bs ['n', 'a', 'm', 'e', 's', 'p', 'a', 'c', 'e']) ∧ Eats (fun x => namespaceDecl x t) (k + 1) (some t) v d 1 none l) ∨
      (t.text = (bs ['t', 'e', 'm', 'p', 'l', 'a', 't', 'e']) ∧ Eats (fun x => templateDecl x cls t) (k + 1) (some t) v (some d) 1 none l) ∨
      (t.text = (bs ['u', 's', 'i', 'n', 'g']) ∧ Eats (fun x => usingDecl x t) (k + 1) (some t) v (some d) 1 none l)) :
    Eats (fun x => x (.decl cls)) k pv (t :: v) (true, some d) 1 none l := by
  refine Eats.call (c := .decl cls) ?_
  show Eats (fun x => declBody x cls) _ _ _ _ _ _ _
  unfold declBody
  refine (Eats.read (seen_of ht rfl)).bind ?_
  refine Eats.ifp ht ?_
  rcases h with ⟨e, h⟩ | ⟨e, h⟩ | ⟨e, h⟩ | ⟨e, h⟩ | ⟨e, h⟩ | ⟨e, h⟩
  · exact Eats.ifp e (h.bind (Eats.ret (Nat.le_refl _)))
  · refine Eats.ifn (fun e' => by rw [e'] at e; revert e; decide) ?_
    exact Eats.ifp e (h.bind (Eats.ret (Nat.le_refl _)))
  all_goals
    refine Eats.ifn (by rw [e]; decide) ?_
    refine Eats.ifn (by rw [e]; decide) ?_
  · exact Eats.ifp e (h.bind (Eats.ret (Nat.le_refl _)))
  all_goals refine Eats.ifn (by rw [e]; decide) ?_
  · exact Eats.ifp e (h.bind (Eats.ret (Nat.le_refl _)))
  all_goals refine Eats.ifn (by rw [e]; decide) ?_
  · exact Eats.ifp e (h.bind (Eats.ret (Nat.le_refl _)))
  · refine Eats.ifn (by rw [e]; decide) ?_
    exact Eats.ifp e (h.bind (Eats.ret (Nat.le_refl _)))

/-! ## Template parameters -/

theorem typenameParam_p {t n f : Token} (ht : Word (bs ['t', 'y', 'p', 'e', 'n', 'a', 'm', 'e']) t) (hn : Name n)
    (hf : f.type = .comma ∨ f.type = .closeAngle) :
    Eats (fun x => x (.specs .templateParam [] [] false)) k pv (t :: n :: f :: l)
      ([.typeParam t noTok n], [.mk (.mk [] (.mk [] (.ident n))) .none noTok]) 1 none (f :: l) := by
  have hv : skipped f.type = false := by rcases hf with h | h <;> exact seen_of h rfl
  refine Eats.call (c := .specs .templateParam [] [] false) ?_
  show Eats (fun x => specsBody x .templateParam [] [] false) _ _ _ _ _ _ _
  unfold specsBody
  refine (Eats.read (seen_of ht.1 rfl)).bind ?_
  refine Eats.ifp ht.1 ?_
  refine Eats.ifn (by rw [ht.2]; decide) ?_
  refine Eats.ifn (by rw [ht.2]; decide) ?_
  refine Eats.ifn (by simp) ?_
  refine Eats.ifn (by simp) ?_
  refine Eats.ifn (by simp) ?_
  refine Eats.ifn (by simp) ?_
  refine Eats.ifn (by simp) ?_
  refine Eats.unmute.bind ?_
  refine Eats.ifn (by simp) ?_
  refine Eats.ifp ht.2 ?_
  unfold typenameSpec
  refine (Eats.read hn.seen).bind ?_
  rw [show (n.type == TT.ellipsis) = false by simp [hn.1]]
  refine Eats.ifp rfl ?_
  refine Eats.push.bind ?_
  refine Eats.bind (qid_name (w := []) (w' := [n]) (comps_p .nil) (unq_p (.ident hn))
    ⟨hv, by rcases hf with h | h <;> simp [h], by rcases hf with h | h <;> simp [h]⟩) ?_
  refine Eats.ifp (by simp [QId.nested]) ?_
  refine Eats.bind (a := Init.none) (k' := 1) (pv' := none) (l' := f :: l) ?_ (Eats.ret (Nat.le_refl _))
  unfold typeIdInit
  refine (Eats.read hv).bind ?_
  refine Eats.ifn (by rcases hf with h | h <;> simp [h]) ?_
  exact Eats.push.bind (Eats.ret (Nat.le_refl _))

theorem tparam_p {t n f : Token} (ht : Word (bs ['t', 'y', 'p', 'e', 'n', 'a', 'm', 'e']) t) (hn : Name n)
    (hf : f.type = .comma ∨ f.type = .closeAngle) :
    EatsTo (fun x => oneParam x true) k pv (t :: n :: f :: l)
      (fun r => r.1 = some ⟨[.typeParam t noTok n], .mk [] (.mk [] (.ident n)), .none⟩) 1 none (f :: l) := by
  unfold oneParam
  refine (Eats.read (seen_of ht.1 rfl)).bindTo ?_
  refine EatsTo.ifn (by simp) ?_
  refine EatsTo.ifn (by rw [ht.2]; decide) ?_
  refine Eats.push.bindTo ?_
  refine (Eats.activity (seen_of ht.1 rfl)).bindTo ?_
  refine (typenameParam_p ht hn hf).bindTo ?_
  refine Eats.failedSince.bindTo ?_
  refine EatsTo.ifp rfl ?_
  refine Eats.unmute.bindTo ?_
  refine (Eats.pure _).bindTo ?_
  exact EatsTo.consumed

theorem tparams_p {ps : List Param} {c : Token} {w : List Token} (h : TParamsT ps c w) :
    ∀ {acc : List Param} {l : List Token} {k : Nat} {pv : Option Token},
    Eats (fun x => x (.paramLoop true acc)) k pv (w ++ l) (acc ++ ps, c) 1 none l := by
  induction h with
  | last ht hn hc =>
    rename_i t n c
    intro acc l k pv
    refine Eats.call (c := .paramLoop true acc) ?_
    show Eats (fun x => paramLoopBody x true acc) _ _ _ _ _ _ _
    unfold paramLoopBody
    refine (tparam_p ht hn (Or.inr hc)).bind (fun a ha => ?_)
    obtain ⟨new', c'⟩ := a
    cases ha
    refine (Eats.read (seen_of hc rfl)).bind ?_
    exact Eats.ifp (by rw [hc]; decide) (Eats.ret (by omega))
  | more ht hn hm r ih =>
    intro acc l k pv
    refine Eats.call (c := .paramLoop true acc) ?_
    show Eats (fun x => paramLoopBody x true acc) _ _ _ _ _ _ _
    unfold paramLoopBody
    refine (tparam_p ht hn (Or.inl hm)).bind (fun a ha => ?_)
    obtain ⟨new', c'⟩ := a
    cases ha
    refine (Eats.read (seen_of hm rfl)).bind ?_
    refine Eats.ifn (by rw [hm]; decide) ?_
    refine Eats.ifp hm ?_
    refine Eats.cast ?_ (ih (acc := acc ++ [.mk _ _ _ _]))
    simp

theorem template_p {cls : List Byte} {t o c : Token} {ps : List Param} {d : Decl} {w v l' : List Token}
    (h : Word (bs ['t', 'e', 'm', 'p', 'l', 'a', 't', 'e']) t) (ho : o.type = .openAngle) (hp : TParamsT ps c w)
    (hd : ∀ k pv, 1 ≤ k → Eats (fun x => x (.decl cls)) k pv v (true, some d) 1 none l') :
    Eats (fun x => x (.decl cls)) k pv (t :: o :: (w ++ v)) (true, some (.tmpl t (.mk o c ps) d)) 1 none l' := by
  refine decl_word h.1 (Or.inr (Or.inr (Or.inr (Or.inr (Or.inl ⟨h.2, ?_⟩)))))
  unfold templateDecl
  refine Eats.unmute.bind ?_
  refine (Eats.read (seen_of ho rfl)).bind ?_
  refine Eats.push.bind ?_
  refine Eats.ifp ho ?_
  refine Eats.bind (a := Params.mk o c ps) (k' := 1) (pv' := none) (l' := v) (Eats.withAngles ?_) ?_
  · refine Eats.call (c := .params true) ?_
    show Eats (fun x => paramsBody x true) _ _ _ _ _ _ _
    unfold paramsBody
    refine (Eats.read (seen_of ho rfl)).bind ?_
    refine (Eats.check (by rw [ho]; rfl)).bind ?_
    refine Eats.unmute.bind ?_
    obtain ⟨n, w', rfl, hn⟩ : ∃ n w', w = n :: w' ∧ n.type = .identifier := by
      cases hp with
      | last ht => exact ⟨_, _, rfl, ht.1⟩
      | more ht => exact ⟨_, _, rfl, ht.1⟩
    refine (Eats.read (seen_of hn rfl)).bind ?_
    refine Eats.ifn (by rw [hn]; decide) ?_
    refine Eats.push.bind ?_
    refine (Eats.inScope (by simp [openPunc]) (tparams_p hp)).bind ?_
    exact Eats.ret (Nat.le_refl _)
  · refine (hd _ _ (Nat.le_refl _)).bind ?_
    exact Eats.ret (Nat.le_refl _)

/-! ## Enumerations -/

theorem qidT_p {q : QId} {w : List Token} (h : QIdT q w) {f : Token} (hf : NameEnd f) {m : QMode} :
    Eats (fun x => x (.qid m)) k pv (w ++ f :: l) q 1 none (f :: l) := by
  obtain ⟨ns, u, w1, w2, rfl, rfl, hn, hu⟩ := h
  rw [List.append_assoc]
  exact qid_name (comps_p hn) (unq_p hu) hf

theorem qidT_some {q : QId} {w : List Token} (h : QIdT q w) (l : List Token) :
    q.isEmpty = false ∧ q.isComplete = true ∧ ∃ n v, w ++ l = n :: v ∧ Name n := by
  obtain ⟨ns, u, w1, w2, rfl, rfl, hn, hu⟩ := h
  have hup := unq_p hu
  refine ⟨by simp [QId.isEmpty, QId.unqual, hup.1], by simp [QId.isComplete, QId.unqual, hup.1], ?_⟩
  rw [List.append_assoc]
  exact first_name hn hup.2.1 l

theorem enors_p {es : List Enor} {c : Token} {w : List Token} (h : EnorsT es c w) :
    ∀ {acc : List Enor} {l : List Token} {k : Nat} {pv : Option Token},
    Eats (fun x => x (.enumBody acc)) k pv (w ++ l) (acc ++ es, c) 1 none l := by
  induction h with
  | nil hc =>
    intro acc l k pv
    refine Eats.call (c := .enumBody acc) ?_
    show Eats (fun x => enumBodyBody x acc) _ _ _ _ _ _ _
    unfold enumBodyBody
    refine (Eats.read (seen_of hc rfl)).bind ?_
    refine Eats.ifp hc ?_
    rw [List.append_nil]
    exact Eats.unmute.bind (Eats.ret (by omega))
  | last hn hi hc =>
    intro acc l k pv
    refine Eats.call (c := .enumBody acc) ?_
    show Eats (fun x => enumBodyBody x acc) _ _ _ _ _ _ _
    unfold enumBodyBody
    rw [List.cons_append, List.append_assoc]
    refine (Eats.read hn.seen).bind ?_
    refine Eats.ifn (by simp [hn.1]) ?_
    refine Eats.ifp hn.1 ?_
    refine Eats.unmute.bind ?_
    refine (init_p hi (by simp [ExprEnd, hc]) (by omega)).bind ?_
    refine (Eats.read (seen_of hc rfl)).bind ?_
    refine Eats.ifn (by simp [hc]) ?_
    refine Eats.ifp hc ?_
    exact Eats.unmute.bind (Eats.ret (by omega))
  | more hn hi hm r ih =>
    intro acc l k pv
    refine Eats.call (c := .enumBody acc) ?_
    show Eats (fun x => enumBodyBody x acc) _ _ _ _ _ _ _
    unfold enumBodyBody
    rw [List.cons_append, List.append_assoc, List.cons_append]
    refine (Eats.read hn.seen).bind ?_
    refine Eats.ifn (by simp [hn.1]) ?_
    refine Eats.ifp hn.1 ?_
    refine Eats.unmute.bind ?_
    refine (init_p hi (by simp [ExprEnd, hm]) (by omega)).bind ?_
    refine (Eats.read (seen_of hm rfl)).bind ?_
    refine Eats.ifp hm ?_
    refine Eats.unmute.bind ?_
    refine Eats.cast ?_ (ih (acc := acc ++ [.mk _ _ _]))
    simp

/-- What `enum` has in front of the braces is read, and then the enumerators. -/
theorem enum_p {key cls colon o c : Token} {q base : QId} {es : List Enor} {w w' : List Token}
    (hh : EnumHeadT cls q colon base w) (ho : o.type = .openCurly) (he : EnorsT es c w') :
    Eats (fun x => enumSpec x key) k pv (w ++ o :: (w' ++ l)) (.enum key cls q colon base o c es) 1 none l := by
  have body : ∀ {k pv}, Eats (fun x => do
      let t3 ← readToken
      if t3.type = .openCurly then
        unmute
        let (es, c) ← inScope .openCurly (x (.enumBody []))
        return Spec.enum key cls q colon base t3 c es
      else
        pushBack t3
        return .enum key cls q colon base noTok noTok []) k pv (o :: (w' ++ l)) (.enum key cls q colon base o c es) 1 none l := by
    intro k pv
    refine (Eats.read (seen_of ho rfl)).bind ?_
    refine Eats.ifp ho ?_
    refine Eats.unmute.bind ?_
    refine (Eats.inScope (Or.inl rfl) (enors_p he)).bind ?_
    exact Eats.ret (Nat.le_refl _)
  have hoe : NameEnd o := ⟨seen_of ho rfl, by simp [ho], by simp [ho]⟩
  unfold enumSpec
  cases hh with
  | none =>
    refine (Eats.read (seen_of ho rfl)).bind ?_
    rw [show decide (o.type = TT.identifier ∧ o.text = (bs ['c', 'l', 'a', 's', 's'])) = false by simp [ho]]
    refine Eats.ifp rfl ?_
    refine Eats.push.bind ?_
    refine (qid_none (by simp) (seen_of ho rfl) (Or.inl (by simp [ho])) (by simp [ho]) (by simp [ho])).bind ?_
    refine (Eats.read (seen_of ho rfl)).bind ?_
    rw [show (o.type == TT.singleColon) = false by simp [ho]]
    refine Eats.ifn (by simp) ?_
    refine Eats.ifp rfl ?_
    refine Eats.push.bind ?_
    refine Eats.ifn (by simp) ?_
    refine (Eats.pure QId.none).bind ?_
    exact body
  | name h =>
    obtain ⟨-, -, n, v, e, hn⟩ := qidT_some h (o :: (w' ++ l))
    rw [e]
    refine (Eats.read hn.seen).bind ?_
    rw [show decide (n.type = TT.identifier ∧ n.text = (bs ['c', 'l', 'a', 's', 's'])) = false by simp [hn.1]; exact hn.ne (by decide)]
    refine Eats.ifp rfl ?_
    refine Eats.push.bind ?_
    rw [← e]
    refine (qidT_p h hoe).bind ?_
    refine (Eats.read (seen_of ho rfl)).bind ?_
    rw [show (o.type == TT.singleColon) = false by simp [ho]]
    refine Eats.ifn (by simp) ?_
    refine Eats.ifp rfl ?_
    refine Eats.push.bind ?_
    refine Eats.ifn (by simp) ?_
    refine (Eats.pure QId.none).bind ?_
    exact body
  | base h hc hb =>
    rw [List.append_assoc, List.cons_append]
    obtain ⟨hq, -, n, v, e, hn⟩ := qidT_some h (colon :: (_ ++ (o :: (w' ++ l))))
    rw [e]
    refine (Eats.read hn.seen).bind ?_
    rw [show decide (n.type = TT.identifier ∧ n.text = (bs ['c', 'l', 'a', 's', 's'])) = false by simp [hn.1]; exact hn.ne (by decide)]
    refine Eats.ifp rfl ?_
    refine Eats.push.bind ?_
    rw [← e]
    refine (qidT_p h ⟨seen_of hc rfl, by simp [hc], by simp [hc]⟩).bind ?_
    refine (Eats.read (seen_of hc rfl)).bind ?_
    rw [show (colon.type == TT.singleColon) = true by simp [hc]]
    refine Eats.ifn (by simp [hq]) ?_
    refine Eats.ifn (by simp) ?_
    refine Eats.ifp rfl ?_
    refine (qidT_p hb hoe).bind ?_
    exact body
  | cls hl h =>
    refine (Eats.read (seen_of hl.1 rfl)).bind ?_
    rw [show decide (cls.type = TT.identifier ∧ cls.text = (bs ['c', 'l', 'a', 's', 's'])) = true by simp [hl.1, hl.2]]
    refine Eats.ifn (by simp) ?_
    refine (qidT_p h hoe).bind ?_
    refine (Eats.read (seen_of ho rfl)).bind ?_
    rw [show (o.type == TT.singleColon) = false by simp [ho]]
    refine Eats.ifn (by simp) ?_
    refine Eats.ifp rfl ?_
    refine Eats.push.bind ?_
    refine Eats.ifn (by simp) ?_
    refine (Eats.pure QId.none).bind ?_
    exact body
  | clsBase hl h hc hb =>
    rw [List.cons_append, List.append_assoc, List.cons_append]
    refine (Eats.read (seen_of hl.1 rfl)).bind ?_
    rw [show decide (cls.type = TT.identifier ∧ cls.text = (bs ['c', 'l', 'a', 's', 's'])) = true by simp [hl.1, hl.2]]
    refine Eats.ifn (by simp) ?_
    refine (qidT_p h ⟨seen_of hc rfl, by simp [hc], by simp [hc]⟩).bind ?_
    refine (Eats.read (seen_of hc rfl)).bind ?_
    rw [show (colon.type == TT.singleColon) = true by simp [hc]]
    refine Eats.ifn (by simp [(qidT_some h []).1]) ?_
    refine Eats.ifn (by simp) ?_
    refine Eats.ifp rfl ?_
    refine (qidT_p hb hoe).bind ?_
    exact body

/-! ## Classes -/

theorem virts_stop {t : Token} {acc : List Token} (hv : skipped t.type = false) (ht : t.text ≠ (bs ['f', 'i', 'n', 'a', 'l'])) :
    Eats (fun x => x (.virts acc)) k pv (t :: l) (acc, t) (k + 1) (some t) l := by
  refine Eats.call (c := .virts acc) ?_
  show Eats (fun x => virtsBody x acc) _ _ _ _ _ _ _
  unfold virtsBody
  refine (Eats.read hv).bind ?_
  exact Eats.ifn ht (Eats.pure _)

/-- The name of a class and `final`, and the token behind. -/
theorem head_p {β : Type} {q : QId} {virts w : List Token} (h : HeadT q virts w) {f : Token} {l' : List Token} {b : β}
    {m : Rec → QId → List Token × Token → M Lim β} (hf : f.type = .openCurly ∨ f.type = .singleColon)
    (ht : f.text ≠ (bs ['f', 'i', 'n', 'a', 'l'])) (hm : ∀ j, Eats (fun x => m x q (virts, f)) (j + 1) (some f) l b 1 none l') :
    Eats (fun x => x (.qid .requireCompleteOrEmpty) >>= fun q => x (.virts []) >>= m x q) k pv (w ++ f :: l) b 1 none
      l' := by
  have hfe : NameEnd f := by
    rcases hf with h | h <;> exact ⟨seen_of h rfl, by simp [h], by simp [h]⟩
  cases h with
  | none =>
    refine (qid_none (by simp) hfe.seen (Or.inl (by rcases hf with h | h <;> simp [h]))
      (by rcases hf with h | h <;> simp [h]) (by rcases hf with h | h <;> simp [h])).bind ?_
    exact (virts_stop hfe.seen ht).bind (hm _)
  | name h =>
    refine (qidT_p h hfe).bind ?_
    exact (virts_stop hfe.seen ht).bind (hm _)
  | final h hw =>
    rw [List.append_assoc]
    refine (qidT_p h ⟨seen_of hw.1 rfl, by simp [hw.1], by simp [hw.1]⟩).bind ?_
    refine Eats.bind (a := ([_], f)) ?_ (hm 2)
    · refine Eats.call (c := .virts []) ?_
      show Eats (fun x => virtsBody x []) _ _ _ _ _ _ _
      unfold virtsBody
      refine (Eats.read (seen_of hw.1 rfl)).bind ?_
      refine Eats.ifp hw.2 ?_
      refine Eats.ifn (by simp) ?_
      exact virts_stop hfe.seen ht

theorem bases_p {colon o : Token} {bases : List Base} {w : List Token} (h : BasesT colon bases (colon :: w))
    (ho : o.type = .openCurly) :
    Eats (fun x => x (.bases [])) k pv (w ++ o :: l) bases 1 none (o :: l) := by
  have hoe : NameEnd o := ⟨seen_of ho rfl, by simp [ho], by simp [ho]⟩
  refine Eats.call (c := .bases []) ?_
  show Eats (fun x => basesBody x []) _ _ _ _ _ _ _
  unfold basesBody
  cases h with
  | one h hq =>
    obtain ⟨-, hqc, n, v, e, hn⟩ := qidT_some hq (o :: l)
    rw [e]
    refine (Eats.read hn.seen).bind ?_
    rw [show decide (n.type = TT.identifier ∧ n.text ∈ accessWords) = false by
      simp only [hn.1, true_and, decide_eq_false_iff_not]; exact hn.notIn (by decide)]
    refine Eats.ifn (by simp) ?_
    refine Eats.ifn (by simp) ?_
    refine (Eats.pure n).bind ?_
    refine Eats.push.bind ?_
    rw [← e]
    refine (qidT_p hq hoe).bind ?_
    refine Eats.ifn (by simp [hqc]) ?_
    refine Eats.unmute.bind ?_
    refine (Eats.read (seen_of ho rfl)).bind ?_
    refine Eats.ifp ho ?_
    exact Eats.push.bind (Eats.ret (Nat.le_refl _))
  | access h ha hq =>
    rename_i a q x
    obtain ⟨-, hqc, n, v, e, hn⟩ := qidT_some hq (o :: l)
    rw [List.cons_append, e]
    refine (Eats.read (seen_of ha.1 rfl)).bind ?_
    rw [show decide (a.type = TT.identifier ∧ a.text ∈ accessWords) = true by
      simp only [ha.1, true_and, decide_eq_true_eq]; exact ha.2]
    refine Eats.ifp rfl ?_
    refine Eats.unmute.bind ?_
    refine Eats.ifp rfl ?_
    refine (Eats.read hn.seen).bind ?_
    refine Eats.push.bind ?_
    rw [← e]
    refine (qidT_p hq hoe).bind ?_
    refine Eats.ifn (by simp [hqc]) ?_
    refine Eats.unmute.bind ?_
    refine (Eats.read (seen_of ho rfl)).bind ?_
    refine Eats.ifp ho ?_
    exact Eats.push.bind (Eats.ret (Nat.le_refl _))

/-- Declarations are read up to the closing token. -/
def DeclsP (cls : List Byte) (ds : List Decl) (w : List Token) : Prop :=
  ∀ (inner : Bool) (acc : List Decl) (c : Token) (l : List Token) (k : Nat) (pv : Option Token),
    c.type = (if inner = true then TT.closeCurly else .endOfFile) → 1 ≤ k →
    Eats (fun x => x (.declLoop inner cls acc)) k pv (w ++ c :: l) (acc ++ ds, c) 1 none l

theorem declList_p {cls : List Byte} {ds : List Decl} {w : List Token} (h : DeclsP cls ds w) {c : Token}
    (hc : c.type = .closeCurly) (hk : 1 ≤ k) :
    Eats (fun x => declarationList x true cls) k pv (w ++ c :: l) (ds, c) 1 none l :=
  Eats.inScope (Or.inl rfl) (h true [] c l _ _ (by simp [hc]) hk)

theorem record_p {key colon o c : Token} {q : QId} {virts : List Token} {bases : List Base} {ds : List Decl}
    {w w' w'' : List Token} (hq : HeadT q virts w) (hb : BasesT colon bases w') (ho : Sym .openCurly o)
    (hd : DeclsP q.className ds w'') (hc : c.type = .closeCurly) :
    Eats (fun x => recordSpec x key) k pv (w ++ (w' ++ o :: (w'' ++ c :: l)))
      (.record key q virts colon bases o c ds) 1 none l := by
  unfold recordSpec
  have hcons : w' = [] ∧ colon = noTok ∧ bases = [] ∨ ∃ v, w' = colon :: v ∧ Sym .singleColon colon := by
    cases hb with
    | none => exact Or.inl ⟨rfl, rfl, rfl⟩
    | one h hq => exact Or.inr ⟨_, rfl, h⟩
    | access h ha hq => exact Or.inr ⟨_, rfl, h⟩
  rcases hcons with ⟨rfl, rfl, rfl⟩ | ⟨v, rfl, hcol⟩
  · refine head_p hq (Or.inl ho.1) ho.2 (fun j => ?_)
    dsimp only
    rw [show (o.type == TT.singleColon) = false by simp [ho.1]]
    refine Eats.ifn (by simp) ?_
    refine (Eats.pure _).bind ?_
    refine Eats.ifn (by simp) ?_
    refine (Eats.pure _).bind ?_
    refine Eats.ifp ho.1 ?_
    refine (declList_p hd hc (by omega)).bind ?_
    exact Eats.ret (Nat.le_refl _)
  · rw [List.cons_append]
    refine head_p hq (Or.inr hcol.1) hcol.2 (fun j => ?_)
    dsimp only
    rw [show (colon.type == TT.singleColon) = true by simp [hcol.1]]
    refine Eats.ifp rfl ?_
    refine (bases_p hb ho.1).bind ?_
    refine Eats.ifp rfl ?_
    refine (Eats.read (seen_of ho.1 rfl)).bind ?_
    refine Eats.ifp ho.1 ?_
    refine (declList_p hd hc (by omega)).bind ?_
    exact Eats.ret (Nat.le_refl _)

/-- A class that is only named. -/
theorem recordName_p {key s : Token} {q : QId} {w : List Token} (hq : QIdT q w) (hs : Sym .semicolon s) :
    Eats (fun x => recordSpec x key) k pv (w ++ s :: l) (.record key q [] noTok [] noTok noTok []) 1 none (s :: l) := by
  unfold recordSpec
  refine (qidT_p hq ⟨seen_of hs.1 rfl, by simp [hs.1], by simp [hs.1]⟩).bind ?_
  refine (virts_stop (seen_of hs.1 rfl) hs.2).bind ?_
  dsimp only
  rw [show (s.type == TT.singleColon) = false by simp [hs.1]]
  refine Eats.ifn (by simp) ?_
  refine (Eats.pure _).bind ?_
  refine Eats.ifn (by simp) ?_
  refine (Eats.pure _).bind ?_
  refine Eats.ifn (by simp [hs.1]) ?_
  exact Eats.push.bind (Eats.ret (Nat.le_refl _))

/-! ## What is to be proved of types and declarations -/

/-- The first token of a declaration. -/
def DeclStart (w : List Token) : Prop :=
  ∃ g v, w = g :: v ∧ g.type ∈ [TT.identifier, .semicolon, .tilde]

/-- A declaration is read. -/
def DeclP (cls : List Byte) (d : Decl) (w : List Token) : Prop :=
  DeclStart w ∧ ∀ (l : List Token) (k : Nat) (pv : Option Token), 1 ≤ k →
    Eats (fun x => x (.decl cls)) k pv (w ++ l) (true, some d) 1 none l

/-- So is one with a semicolon behind it. -/
def TypeDeclP (cls : List Byte) (d : Decl) (w : List Token) : Prop :=
  DeclStart w ∧ ∀ (s : Token) (l : List Token) (k : Nat) (pv : Option Token), Sym .semicolon s → 1 ≤ k →
    Eats (fun x => x (.decl cls)) k pv (w ++ s :: l) (true, some d) 1 none (s :: l)

/-- The words with which classes and enumerations begin. -/
def typeWords : List (List Byte) := classWords ++ [(bs ['e', 'n', 'u', 'm'])]

/-- A class or enumeration is read as one of the specifiers, and no declarators. -/
def TypeP (s : Spec) (w : List Token) : Prop :=
  (∃ g v, w = g :: v ∧ g.type = .identifier ∧ g.text ∈ typeWords) ∧ s.isType = true ∧
    ∀ (cls : List Byte) (acc : List Spec) (semi : Token) (l : List Token) (k : Nat) (pv : Option Token),
      Sym .semicolon semi →
      Eats (fun x => x (.specs .globalOrMember cls acc false)) k pv (w ++ semi :: l) (acc ++ [s], []) 1 none (semi :: l)

/-- No declarators. -/
theorem noDcors_p {s : Token} (hs : s.type = .semicolon) (hk : 1 ≤ k) :
    Eats (fun x => x (.initDcors [])) k pv (s :: l) [] 1 none (s :: l) := by
  refine Eats.call (c := .initDcors []) ?_
  show Eats (fun x => initDcorsBody x []) _ _ _ _ _ _ _
  unfold initDcorsBody
  refine Eats.bind (a := Dcor.mk [] .none) (k' := k) (pv' := none) (l' := s :: l) ?_
    (Eats.ifp rfl (Eats.ret hk))
  refine Eats.call (c := .dcor [] true false) ?_
  show Eats (fun x => dcorBody x [] true false) _ _ _ _ _ _ _
  unfold dcorBody
  refine Eats.bind (a := { chain := [], qid := .none, expecting := true }) (k' := k) (pv' := none) (l' := s :: l) ?_ ?_
  · refine Eats.call (c := .phase1 true false [] false) ?_
    show Eats (fun x => phase1Body x true false [] false) _ _ _ _ _ _ _
    unfold phase1Body
    refine (qid_none (by simp) (seen_of hs rfl) (Or.inl (by simp [hs])) (by simp [hs]) (by simp [hs])).bind ?_
    refine Eats.ifn (by simp [QId.isComplete, QId.none, QId.unqual, Unqual.isEmpty]) ?_
    refine (Eats.read (seen_of hs rfl)).bind ?_
    refine Eats.ifn (by simp [hs]) ?_
    refine Eats.ifn (by simp [QId.none, QId.nested]) ?_
    refine Eats.ifn (by simp [hs]) ?_
    refine Eats.ifn (by simp [hs]) ?_
    refine Eats.ifn (by simp [hs]) ?_
    refine (Eats.check (by simp [QId.none, QId.nested])).bind ?_
    refine Eats.ifn (by simp) ?_
    exact Eats.push.bind (Eats.ret (Nat.le_refl _))
  · refine Eats.ifn (by simp) ?_
    refine (phase2_end (seen_of hs rfl) (by simp [hs]) (by simp [hs])).bind ?_
    exact Eats.ret (Nat.le_refl _)

theorem specs_type {cls : List Byte} {acc : List Spec} {s : Spec} {semi g : Token} {v : List Token}
    (hs : semi.type = .semicolon) (hg : g.type = .identifier)
    (h : (g.text ∈ classWords ∧ ∀ k pv, Eats (fun x => recordSpec x g) k pv v s 1 none (semi :: l)) ∨
      (g.text = (bs ['e', 'n', 'u', 'm']) ∧ ∀ k pv, Eats (fun x => enumSpec x g) k pv v s 1 none (semi :: l))) :
    Eats (fun x => x (.specs .globalOrMember cls acc false)) k pv (g :: v) (acc ++ [s], []) 1 none (semi :: l) := by
  have hend : ∀ pv, Eats (fun x => x (.specs .globalOrMember cls (acc ++ [s]) true)) 1 pv (semi :: l)
      (acc ++ [s], []) 1 none (semi :: l) :=
    fun pv => specs_end (seen_of hs rfl) (by simp [hs]) (fun _ => noDcors_p hs (Nat.le_refl _))
  have hno : g.text ∉ keywordWords ∧ g.text ≠ (bs ['e', 'x', 't', 'e', 'r', 'n']) ∧ g.text ≠ (bs ['a', 'l', 'i', 'g', 'n', 'a', 's']) ∧ g.text ≠ (bs ['t', 'y', 'p', 'e', 'd', 'e', 'f']) := by
    rcases h with ⟨h, -⟩ | ⟨h, -⟩
    · generalize g.text = x at h
      simp only [classWords, List.mem_cons, List.not_mem_nil, or_false] at h
      rcases h with rfl | rfl | rfl <;> decide
    · rw [h]; decide
  obtain ⟨h1, h2, h3, h4⟩ := hno
  refine Eats.call (c := .specs .globalOrMember cls acc false) ?_
  show Eats (fun x => specsBody x .globalOrMember cls acc false) _ _ _ _ _ _ _
  unfold specsBody
  refine (Eats.read (seen_of hg rfl)).bind ?_
  refine Eats.ifp hg ?_
  refine Eats.ifn h2 ?_
  refine Eats.ifn h1 ?_
  refine Eats.ifn (fun h => h3 h.2) ?_
  refine Eats.ifn (fun h => h4 h.2) ?_
  rcases h with ⟨h, hr⟩ | ⟨h, hr⟩
  · refine Eats.ifp ⟨by simp, h⟩ ?_
    refine Eats.unmute.bind ?_
    refine Eats.ifn (by simp) ?_
    exact (hr _ _).bind (hend _)
  · refine Eats.ifn (by rw [h]; decide) ?_
    refine Eats.ifp ⟨by simp, h⟩ ?_
    refine Eats.unmute.bind ?_
    refine Eats.ifn (by simp) ?_
    exact (hr _ _).bind (hend _)

theorem simple_word {t : Token} (h : t.text ∈ specWords ∨ t.text ∈ typeWords) : t.text ∉ declWords := by
  generalize t.text = x at h
  rcases h with h | h
  · revert x; decide
  · revert x; decide

/-- The first token of the specifiers of a declaration. -/
theorem specs_first {specs : List Spec} {w : List Token} (h : SpecsT specs w) :
    ∃ n v, w = n :: v ∧ n.type = .identifier ∧ n.text ∉ declWords := by
  obtain ⟨k1, q, w', k2, rfl, rfl, hk, ⟨ns, u, w1, w2, rfl, rfl, hn, hu⟩, hk2⟩ := h
  cases k1 with
  | cons t k1 => exact ⟨t, _, rfl, (hk t (by simp)).1, simple_word (Or.inl (hk t (by simp)).2)⟩
  | nil =>
    obtain ⟨n, v, e, h⟩ := first_name hn (unq_p hu).2.1 k2
    exact ⟨n, v, by simpa using e, h.1, h.notIn (by decide)⟩

theorem needs_vars {ds : List InitDcor} {w : List Token} (h : VarsT ds w) : needsSemicolon ds = true := by
  induction h with
  | last hd hv hi => cases hi <;> rfl
  | more hd hv hi hm r ih =>
    rename_i ds' _ _ _
    cases ds' with
    | nil => simp [needsSemicolon] at ih
    | cons a ds' => simpa [needsSemicolon, List.getLast?_cons_cons] using ih

theorem simple_start {t : Token} {w : List Token} (h : t.type = .identifier ∨ t.type = .tilde) : DeclStart (t :: w) :=
  ⟨t, w, rfl, by rcases h with h | h <;> simp [h]⟩

/-- Words before a declaration that is simple. -/
theorem kws_simple {cls : List Byte} {k1 : List Token} (hk1 : Kws k1) {d : Decl} {v l' : List Token}
    {g : Token} (hg : (g.type = .identifier ∧ g.text ∉ declWords) ∨ g.type = .tilde)
    (h : ∀ t v', k1 ++ g :: v = t :: v' → skipped t.type = false → ∀ k pv, 1 ≤ k →
      Eats (fun x => simpleDeclaration x cls) k pv (t :: v') d 1 none l') (hk : 1 ≤ k) :
    Eats (fun x => x (.decl cls)) k pv (k1 ++ g :: v) (true, some d) 1 none l' := by
  cases k1 with
  | nil =>
    exact decl_simple hg (h _ _ rfl (by rcases hg with hg | hg <;> first | exact seen_of hg.1 rfl | exact seen_of hg rfl) _ _ hk)
  | cons t k1 =>
    obtain ⟨ht, hw⟩ := hk1 t (by simp)
    exact decl_simple (Or.inl ⟨ht, simple_word (Or.inl hw)⟩) (h _ _ rfl (seen_of ht rfl) _ _ hk)

theorem kws_start {k1 : List Token} (hk1 : Kws k1) {v : List Token}
    {g : Token} (hg : g.type = .identifier ∨ g.type = .tilde) : DeclStart (k1 ++ g :: v) := by
  cases k1 with
  | nil => exact simple_start hg
  | cons t k1 => exact simple_start (Or.inl (hk1 t (by simp)).1)

theorem needs_one {d : Dcor} {i : Init} : needsSemicolon [.mk d i noTok] = !i.isBody := rfl

theorem declLoop_step {inner : Bool} {cls : List Byte} {acc : List Decl} {d : Decl} {g : Token} {v l l' : List Token}
    {b : List Decl × Token} (hg : g.type ∈ [TT.identifier, .semicolon, .tilde]) (hk : 1 ≤ k)
    (h : ∀ k pv, 1 ≤ k → Eats (fun x => x (.decl cls)) k pv ((g :: v) ++ l) (true, some d) 1 none l)
    (hr : ∀ k pv, 1 ≤ k → Eats (fun x => x (.declLoop inner cls (acc ++ [d]))) k pv l b 1 none l') :
    Eats (fun x => x (.declLoop inner cls acc)) k pv ((g :: v) ++ l) b 1 none l' := by
  refine Eats.call (c := .declLoop inner cls acc) ?_
  show Eats (fun x => declLoopBody x inner cls acc) _ _ _ _ _ _ _
  unfold declLoopBody
  simp only [List.mem_cons, List.not_mem_nil, or_false] at hg
  refine (Eats.read (by rcases hg with h | h | h <;> exact seen_of h rfl)).bind ?_
  refine Eats.ifn (by cases inner <;> rcases hg with h | h | h <;> simp [h]) ?_
  refine Eats.push.bind ?_
  refine (h _ _ hk).bind ?_
  refine Eats.ifp rfl ?_
  exact hr _ _ (Nat.le_refl _)

theorem empty_p {cls : List Byte} {s : Token} (h : s.type = .semicolon) : DeclP cls (.empty s) [s] := by
  refine ⟨⟨_, _, rfl, by simp [h]⟩, fun l k pv hk => ?_⟩
  refine Eats.call (c := .decl cls) ?_
  show Eats (fun x => declBody x cls) _ _ _ _ _ _ _
  unfold declBody
  refine (Eats.read (seen_of h rfl)).bind ?_
  refine Eats.ifn (by simp [h]) ?_
  exact Eats.ifp h (Eats.ret (by omega))

mutual

theorem type_p {s : Spec} {w : List Token} : TypeT s w → TypeP s w
  | .decl hk hq => by
    refine ⟨⟨_, _, rfl, hk.1, List.mem_append_left _ hk.2⟩, rfl, fun cls acc semi l k pv hs => ?_⟩
    exact specs_type hs.1 hk.1 (Or.inl ⟨hk.2, fun k pv => recordName_p hq hs⟩)
  | .record hk hq hb ho hd hc => by
    refine ⟨⟨_, _, rfl, hk.1, List.mem_append_left _ hk.2⟩, rfl, fun cls acc semi l k pv hs => ?_⟩
    simp only [List.cons_append, List.append_assoc, List.nil_append]
    exact specs_type hs.1 hk.1 (Or.inl ⟨hk.2, fun k pv => record_p hq hb ho (decls_p hd) hc⟩)
  | .enum hk hh ho he => by
    refine ⟨⟨_, _, rfl, hk.1, by rw [hk.2]; decide⟩, rfl, fun cls acc semi l k pv hs => ?_⟩
    simp only [List.cons_append, List.append_assoc]
    exact specs_type hs.1 hk.1 (Or.inr ⟨hk.2, fun k pv => enum_p hh ho he⟩)

theorem decl_p {cls : List Byte} {d : Decl} {w : List Token} : DeclT cls d w → DeclP cls d w
  | .empty h => empty_p h
  | .vars hs hd h => by
    rename_i specs ds semi w w'
    obtain ⟨n, v, rfl, hn, hw⟩ := specs_first hs
    refine ⟨simple_start (Or.inl hn), fun l k pv hk => ?_⟩
    refine decl_simple (Or.inl ⟨hn, hw⟩) ?_
    have hne : ds.isEmpty = false := by cases hd <;> rfl
    refine simple_p (l' := semi :: l) (seen_of hn rfl) hk (fun k pv hk => ?_) (Or.inl hne) (fun pv => ?_)
    · rw [show (v.append (w' ++ [semi])).append l = v ++ (w' ++ semi :: l) by simp, ← List.cons_append]
      obtain ⟨g, v', e, hg⟩ : ∃ g v', w' ++ semi :: l = g :: v' ∧
          (Name g ∨ Word (bs ['o', 'p', 'e', 'r', 'a', 't', 'o', 'r']) g ∨ g.type ∈ [TT.star, .singleAmpersand, .doubleAmpersand, .tilde]) := by
        cases hd with
        | last hd hv hi => rw [List.append_assoc]; exact (dcor_start hd _).2
        | more hd hv hi hm r => rw [List.append_assoc]; exact (dcor_start hd _).2
      rw [e]
      refine specs_global hs hg (fun pv => ?_)
      rw [← e]
      exact vars_p hd (acc := []) h (Nat.le_refl _)
    · exact Eats.ifp (needs_vars hd) (semi_p h)
  | .func hs hd hf he => by
    rename_i specs d i semi w w' w''
    obtain ⟨n, v, rfl, hn, hw⟩ := specs_first hs
    refine ⟨simple_start (Or.inl hn), fun l k pv hk => ?_⟩
    refine decl_simple (Or.inl ⟨hn, hw⟩) ?_
    obtain ⟨hsuf, l', hbody, hsemi⟩ := funcEnd_p he l
    refine simple_p (l' := l') (seen_of hn rfl) hk (fun k pv hk => ?_) (Or.inl rfl) (fun pv => ?_)
    · rw [show (v.append (w' ++ w'')).append l = v ++ (w' ++ (w'' ++ l)) by simp, ← List.cons_append]
      obtain ⟨g, v', e, hg⟩ := (dcor_start hd (w'' ++ l)).2
      rw [e]
      refine specs_global hs hg (fun pv => ?_)
      rw [← e]
      exact func_p hd hf hsuf hbody (Nat.le_refl _)
    · exact hsemi pv
  | .dtor hk1 ht hn hp hq he => by
    rename_i t n pl quals i semi k1 w w'
    refine ⟨kws_start hk1 (Or.inr ht), fun l k pv hk => ?_⟩
    simp only [List.append_assoc, List.cons_append]
    obtain ⟨hsuf, l', hbody, hsemi⟩ := funcEnd_p he l
    refine kws_simple hk1 (Or.inr ht) (fun t' v' e hv k pv hk => ?_) hk
    refine simple_p (l' := l') hv hk (fun k pv hk => ?_) (Or.inl rfl) (fun pv => hsemi pv)
    rw [← e]
    refine specs_kws hk1 (acc := []) (fun j pv hj => ?_)
    · refine specs_tilde (acc := k1.map .keyword) ht (fun pv => ?_)
      have hd : DcorT (.mk [.func pl quals noTok .none] (.mk [] (.dtor t n))) (t :: n :: (w ++ (quals ++ []))) :=
        DcorT.mk (p := []) (w := []) (w' := [t, n]) .nil .nil (.dtor ht hn) (.func hp hq .nil)
      have := func_p (k := j) (pv := pv) hd rfl hsuf hbody (by omega)
      simpa using this
  | .ctor hk1 hn h0 hp hq he => by
    rename_i n pl quals i semi k1 w w'
    refine ⟨kws_start hk1 (Or.inl hn.1), fun l k pv hk => ?_⟩
    simp only [List.append_assoc, List.cons_append]
    obtain ⟨hsuf, l', hbody, hsemi⟩ := funcEnd_p he l
    refine kws_simple hk1 (Or.inl ⟨hn.1, hn.notIn (by decide)⟩) (fun t' v' e hv k pv hk => ?_) hk
    refine simple_p (l' := l') hv hk (fun k pv hk => ?_) (Or.inl rfl) (fun pv => hsemi pv)
    rw [← e]
    refine specs_kws hk1 (acc := []) (fun j pv hj => ?_)
    · obtain ⟨o, v, rfl, ho⟩ := (params_p hp).1
      refine specs_name (acc := k1.map .keyword) (l := (o :: v) ++ (quals ++ (w' ++ l))) hn (q := .mk [] (.ident n)) (fun k pv => ?_) rfl ?_
      · exact qid_name (w := []) (w' := [n]) (comps_p .nil) (unq_p (.ident hn))
          ⟨seen_of ho rfl, by simp [ho], by simp [ho]⟩
      · exact typeSpec_ctor h0 hp hq hsuf hbody (Nat.le_refl _)
  | .access h hc => by
    refine ⟨⟨_, _, rfl, by simp [h.1]⟩, fun l k pv hk => ?_⟩
    refine decl_word h.1 (Or.inr (Or.inl ⟨h.2, ?_⟩))
    unfold accessDecl
    refine Eats.unmute.bind ?_
    refine (Eats.read (seen_of hc rfl)).bind ?_
    exact Eats.ifp hc (Eats.ret (by omega))
  | .staticAssert h ho hb hc hs => by
    refine ⟨⟨_, _, rfl, by simp [h.1]⟩, fun l k pv hk => ?_⟩
    simp only [List.cons_append, List.append_assoc, List.nil_append]
    refine decl_word h.1 (Or.inr (Or.inr (Or.inl ⟨h.2, ?_⟩)))
    unfold staticAssertDecl
    refine Eats.unmute.bind ?_
    refine (Eats.read (seen_of ho rfl)).bind ?_
    refine Eats.ifn (by simp [ho]) ?_
    refine (skipAny_p hb (Or.inr (Or.inl ho)) (by rw [ho, hc]; rfl)).bind ?_
    exact (semi_p hs).bind (Eats.ret (Nat.le_refl _))
  | .ns h hq ho hd hc => by
    refine ⟨⟨_, _, rfl, by simp [h.1]⟩, fun l k pv hk => ?_⟩
    simp only [List.cons_append, List.append_assoc, List.nil_append]
    refine decl_word h.1 (Or.inr (Or.inr (Or.inr (Or.inl ⟨h.2, ?_⟩))))
    have hds := decls_p hd
    unfold namespaceDecl
    refine Eats.unmute.bind ?_
    rcases hq with ⟨rfl, rfl⟩ | hq
    · refine (Eats.read (seen_of ho rfl)).bind ?_
      dsimp only
      rw [beq_false_of_ne (show _ ≠ TT.identifier by rw [ho]; decide)]
      refine Eats.ifn (by simp) ?_
      refine Eats.ifn (by simp) ?_
      refine (Eats.pure _).bind ?_
      refine Eats.ifn (by simp) ?_
      refine (Eats.pure _).bind ?_
      refine Eats.ifp ho ?_
      exact (declList_p hds hc (by omega)).bind (Eats.ret (Nat.le_refl _))
    · obtain ⟨-, -, n, v, e, hn⟩ := qidT_some hq (_ :: (_ ++ _ :: l))
      rw [e]
      refine (Eats.read hn.seen).bind ?_
      dsimp only
      rw [show (n.type == TT.identifier) = true by simp [hn.1]]
      refine Eats.ifp rfl ?_
      refine Eats.push.bind ?_
      refine Eats.ifp rfl ?_
      rw [← e]
      refine (qidT_p hq ⟨seen_of ho rfl, by simp [ho], by simp [ho]⟩).bind ?_
      refine Eats.ifp rfl ?_
      refine (Eats.read (seen_of ho rfl)).bind ?_
      refine Eats.ifp ho ?_
      exact (declList_p hds hc (by omega)).bind (Eats.ret (Nat.le_refl _))
  | .usingDir hu hn hq hs => by
    refine ⟨⟨_, _, rfl, by simp [hu.1]⟩, fun l k pv hk => ?_⟩
    simp only [List.cons_append, List.append_assoc, List.nil_append]
    refine decl_word hu.1 (Or.inr (Or.inr (Or.inr (Or.inr (Or.inr ⟨hu.2, ?_⟩)))))
    unfold usingDecl
    refine Eats.unmute.bind ?_
    refine (Eats.read (seen_of hn.1 rfl)).bind ?_
    refine Eats.ifp hn ?_
    refine (qidT_p hq ⟨seen_of hs rfl, by simp [hs], by simp [hs]⟩).bind ?_
    exact (semi_p hs).bind (Eats.ret (Nat.le_refl _))
  | .alias hu hn he ht hs => by
    refine ⟨⟨_, _, rfl, by simp [hu.1]⟩, fun l k pv hk => ?_⟩
    simp only [List.cons_append, List.append_assoc, List.nil_append]
    refine decl_word hu.1 (Or.inr (Or.inr (Or.inr (Or.inr (Or.inr ⟨hu.2, ?_⟩)))))
    unfold usingDecl
    refine Eats.unmute.bind ?_
    refine (Eats.read hn.seen).bind ?_
    refine Eats.ifn (fun h => hn.ne (by decide) h.2) ?_
    refine (Eats.read (seen_of he rfl)).bind ?_
    refine Eats.ifn (by simp [he]) ?_
    refine ((typeId_p ht).2 _ _ (typeEnd_of (by simp [hs])) _ _).bind ?_
    exact (semi_p hs).bind (Eats.ret (Nat.le_refl _))
  | .linkage he hl ho hd hc => by
    rename_i e s o c ds w
    refine ⟨⟨_, _, rfl, by simp [he.1]⟩, fun l k pv hk => ?_⟩
    simp only [List.cons_append, List.append_assoc, List.nil_append]
    refine decl_word he.1 (Or.inl ⟨he.2, ?_⟩)
    have hds := decls_p hd
    unfold externDecl
    refine Eats.unmute.bind ?_
    refine Eats.push.bind ?_
    refine Eats.region (a := (e, s, o)) (k' := 3) (pv' := some o) (l' := w ++ c :: l) hk (by omega)
      (f := fun _ => readToken >>= fun e => readToken >>= fun l => readToken >>= fun o => pure (e, l, o))
      (h := fun x => declarationList x true [] >>= fun r => pure (.linkage e s o r.2 r.1)) ?_ ?_ ?_
    · refine (Eats.read (seen_of he.1 rfl)).bind ?_
      refine (Eats.read (seen_of hl rfl)).bind ?_
      exact (Eats.read (seen_of ho rfl)).bind (Eats.pure _)
    · intro r n p q z hr hq hf hcan
      obtain ⟨e', q1, h1, hf⟩ := bind_inv hf
      obtain ⟨s', q2, h2, hf⟩ := bind_inv hf
      obtain ⟨o', q3, h3, hf⟩ := bind_inv hf
      cases hf
      refine (bind_ok h1).trans ?_
      refine (bind_ok h2).trans ?_
      refine (CppParse.ifn (by simp [hl])).trans ?_
      refine (bind_ok h3).trans ?_
      refine (CppParse.ifp ho).trans ?_
      exact (bind_ok hcan)
    · exact (declList_p hds hc (Nat.le_refl _)).bind (Eats.ret (Nat.le_refl _))
  | .tmpl h ho hp hd => by
    refine ⟨⟨_, _, rfl, by simp [h.1]⟩, fun l k pv hk => ?_⟩
    simp only [List.cons_append, List.append_assoc]
    exact template_p h ho hp (fun k pv hk => (decl_p hd).2 l k pv hk)

theorem typeDecl_p {cls : List Byte} {d : Decl} {w : List Token} : TypeDeclT cls d w → TypeDeclP cls d w
  | .type hk1 h => by
    rename_i k1 s w
    obtain ⟨⟨g, v, rfl, hg, hw⟩, hty, h⟩ := type_p h
    refine ⟨kws_start hk1 (Or.inl hg), fun semi l k pv hs hk => ?_⟩
    rw [List.append_assoc, List.cons_append]
    refine kws_simple hk1 (Or.inl ⟨hg, simple_word (Or.inr hw)⟩) (fun t' v' e hv k pv hk => ?_) hk
    refine simple_p (l' := semi :: l) hv hk (fun k pv hk => ?_) (Or.inr (by simp [hty])) (fun pv => ?_)
    · rw [← e]
      refine specs_kws hk1 (acc := []) (fun j pv hj => ?_)
      exact h _ _ _ _ _ _ hs
    · exact Eats.ifn (by simp [needsSemicolon]) (Eats.ret (Nat.le_refl _))
  | .tmpl h ho hp hd => by
    refine ⟨⟨_, _, rfl, by simp [h.1]⟩, fun semi l k pv hs hk => ?_⟩
    simp only [List.cons_append, List.append_assoc]
    exact template_p h ho hp (fun k pv hk => (typeDecl_p hd).2 semi l k pv hs hk)

theorem decls_p {cls : List Byte} {ds : List Decl} {w : List Token} : DeclsT cls ds w → DeclsP cls ds w
  | .nil => fun inner acc c l k pv hc hk => by
    refine Eats.call (c := .declLoop inner cls acc) ?_
    show Eats (fun x => declLoopBody x inner cls acc) _ _ _ _ _ _ _
    unfold declLoopBody
    refine (Eats.read (by cases inner <;> exact seen_of hc rfl)).bind ?_
    refine Eats.ifp hc ?_
    rw [List.append_nil]
    exact Eats.ret (by omega)
  | .cons (d := d) h r => fun inner acc c l k pv hc hk => by
    have ih := decls_p r
    rw [List.append_assoc]
    obtain ⟨⟨g, v, rfl, hg⟩, h⟩ := decl_p h
    refine declLoop_step hg hk (h _) ?_
    intro k pv hk
    refine Eats.cast ?_ (ih inner (acc ++ [d]) c l k pv hc hk)
    simp
    rfl
  | .type (d := d) (semi := semi) h hs r => fun inner acc c l k pv hc hk => by
    have ih := decls_p r
    rw [List.append_assoc, List.cons_append]
    obtain ⟨⟨g, v, rfl, hg⟩, h⟩ := typeDecl_p h
    refine declLoop_step hg hk (h _ _ · · hs ·) (fun k pv hk => ?_)
    refine declLoop_step (v := []) (by simp [hs.1]) hk ((empty_p hs.1).2 _) ?_
    intro k pv hk
    refine Eats.cast ?_ (ih inner (acc ++ [d] ++ [.empty semi]) c l k pv hc hk)
    simp
    rfl

end

end

end Verif.CppParse

import Verif.CppParse.LemmasHang
import Verif.CppParse.LemmasFile
/-! # The parser for C++ — lemmas: parsing tokens that are given as a list -/
namespace Verif.CppParse
open Verif Verif.Cpp

/-- Tokens given as a list, none of which is skipped; behind the last one nothing may be read. -/
structure Lim where
  l : List Token

instance : Source Lim where
  next := fun _ s =>
    match s.l with
    | [] => none
    | t :: l => if skipped t.type = true then none else some ([], t, ⟨l⟩)

/-- The state of a parser of tokens given as a list. -/
abbrev PL := P Lim

/-- The calls made by a body. -/
abbrev Rec := (c : Call) → M Lim c.Out

/-- With calls of sufficient depth, `f` has the result `b`. -/
def Run {β : Type} (f : Rec → M Lim β) (p : PL) (b : β) (q : PL) : Prop :=
  ∃ N, ∀ n, N ≤ n → f (go n) p = .ok b q

theorem Run.of {β : Type} {m : M Lim β} {p q : PL} {b : β} (h : m p = .ok b q) :
    Run (fun _ => m) p b q := ⟨0, fun _ _ => h⟩

theorem Run.bind {α β : Type} {f : Rec → M Lim α} {g : Rec → α → M Lim β} {p q r : PL} {a : α}
    {b : β} (h : Run f p a q) (h' : Run (fun x => g x a) q b r) : Run (fun x => f x >>= g x) p b r := by
  obtain ⟨N, h⟩ := h
  obtain ⟨N', h'⟩ := h'
  exact ⟨max N N', fun n hn => (bind_ok (h n (by omega))).trans (h' n (by omega))⟩

theorem Run.call {c : Call} {p q : PL} {b : c.Out} (h : Run (fun x => body x c) p b q) :
    Run (fun x => x c) p b q := by
  obtain ⟨N, h⟩ := h
  refine ⟨N + 1, fun n hn => ?_⟩
  cases n with
  | zero => omega
  | succ n => exact h n (by omega)

theorem Run.ifp {β : Type} {c : Prop} [Decidable c] {f g : Rec → M Lim β} {p q : PL} {b : β} (hc : c)
    (h : Run f p b q) : Run (fun x => if c then f x else g x) p b q := by
  simp only [if_pos hc]; exact h

theorem Run.ifn {β : Type} {c : Prop} [Decidable c] {f g : Rec → M Lim β} {p q : PL} {b : β} (hc : ¬c)
    (h : Run g p b q) : Run (fun x => if c then f x else g x) p b q := by
  simp only [if_neg hc]; exact h

/-- The tokens in front of the parser are `l`.  With a restore point, at least `k` tokens of the queue have been
read, the last of them is `pv` (if given). -/
structure At (k : Nat) (pv : Option Token) (l : List Token) (p : PL) : Prop where
  between : Between p
  ahead : p.queue.drop p.pos ++ p.src.l = l
  mute : p.mute = false
  low : p.restore = true → k ≤ p.pos
  last : p.restore = true → ∀ t, pv = some t → 1 ≤ p.pos ∧ p.queue[p.pos - 1]? = some t
  curly : p.accept.openCurly = false
  raw : p.raw = 0

/-- Nothing but the position has changed. -/
structure Keep (p q : PL) : Prop where
  restore : q.restore = p.restore
  accept : q.accept = p.accept
  angles : q.angles = p.angles
  raw : q.raw = p.raw
  errs : q.errs = p.errs
  seen : q.seen = p.seen
  grow : p.restore = true → ∃ x, q.queue = p.queue ++ x ∧ p.src.l = x ++ q.src.l

theorem Keep.refl (p : PL) : Keep p p :=
  ⟨rfl, rfl, rfl, rfl, rfl, rfl, fun _ => ⟨[], by simp⟩⟩

theorem Keep.trans {p q r : PL} (h : Keep p q) (h' : Keep q r) : Keep p r where
  restore := h'.restore.trans h.restore
  accept := h'.accept.trans h.accept
  angles := h'.angles.trans h.angles
  raw := h'.raw.trans h.raw
  errs := h'.errs.trans h.errs
  seen := h'.seen.trans h.seen
  grow := fun x => by
    obtain ⟨y, h1, h2⟩ := h.grow x
    obtain ⟨z, h4, h5⟩ := h'.grow (by rw [h.restore]; exact x)
    exact ⟨y ++ z, by rw [h4, h1, List.append_assoc], by rw [h2, h5, List.append_assoc]⟩

/-- `f` has the result `b` and consumes the tokens from `l` to `l'`. -/
def Eats {β : Type} (f : Rec → M Lim β) (k : Nat) (pv : Option Token) (l : List Token) (b : β) (k' : Nat)
    (pv' : Option Token) (l' : List Token) : Prop :=
  ∀ p, At k pv l p → ∃ q, Run f p b q ∧ At k' pv' l' q ∧ Keep p q

section
variable {α β : Type} {k k' k'' : Nat} {pv pv' pv'' : Option Token} {l l' l'' : List Token}

theorem Eats.bind {f : Rec → M Lim α} {g : Rec → α → M Lim β} {a : α} {b : β}
    (h : Eats f k pv l a k' pv' l') (h' : Eats (fun x => g x a) k' pv' l' b k'' pv'' l'') :
    Eats (fun x => f x >>= g x) k pv l b k'' pv'' l'' := by
  intro p hp
  obtain ⟨q, r, hq, kp⟩ := h p hp
  obtain ⟨q', r', hq', kp'⟩ := h' q hq
  exact ⟨q', r.bind r', hq', kp.trans kp'⟩

theorem Eats.call {c : Call} {b : c.Out} (h : Eats (fun x => body x c) k pv l b k' pv' l') :
    Eats (fun x => x c) k pv l b k' pv' l' := by
  intro p hp
  obtain ⟨q, r, hq⟩ := h p hp
  exact ⟨q, r.call, hq⟩

theorem Eats.ifp {c : Prop} [Decidable c] {f g : Rec → M Lim β} {b : β} (hc : c)
    (h : Eats f k pv l b k' pv' l') : Eats (fun x => if c then f x else g x) k pv l b k' pv' l' := by
  simp only [if_pos hc]; exact h

theorem Eats.ifn {c : Prop} [Decidable c] {f g : Rec → M Lim β} {b : β} (hc : ¬c)
    (h : Eats g k pv l b k' pv' l') : Eats (fun x => if c then f x else g x) k pv l b k' pv' l' := by
  simp only [if_neg hc]; exact h

theorem Eats.pure (b : β) : Eats (fun _ => pure b) k pv l b k pv l :=
  fun p hp => ⟨p, .of rfl, hp, .refl p⟩

theorem At.weaken {p : PL} (h : At k pv l p) (hk : k' ≤ k) : At k' none l p :=
  ⟨h.between, h.ahead, h.mute, fun x => Nat.le_trans hk (h.low x), fun _ t e => (by cases e), h.curly, h.raw⟩

theorem Eats.weaken {f : Rec → M Lim β} {b : β} (h : Eats f k none l b k' pv' l') {j j' : Nat} (hj : k ≤ j)
    (hj' : j' ≤ k') : Eats f j pv l b j' none l' := by
  intro p hp
  obtain ⟨q, r, hq, kp⟩ := h p (hp.weaken hj)
  exact ⟨q, r, hq.weaken hj', kp⟩

theorem Eats.done {f : Rec → M Lim β} {b : β} (h : Eats f k pv l b k' pv' l') {j : Nat} (hj : j ≤ k') :
    Eats f k pv l b j none l' := by
  intro p hp
  obtain ⟨q, r, hq, kp⟩ := h p hp
  exact ⟨q, r, hq.weaken hj, kp⟩

theorem Eats.ret {b : β} {j : Nat} (hj : j ≤ k) : Eats (fun _ => Pure.pure b) k pv l b j none l :=
  (Eats.pure b).done hj

theorem Eats.check {c : Bool} (h : c = true) : Eats (fun _ => check c) k pv l () k pv l :=
  fun p hp => ⟨p, .of (by unfold CppParse.check; rw [if_pos h]), hp, .refl p⟩

theorem Eats.unmute : Eats (fun _ => unmute) k pv l () k pv l :=
  fun p hp => ⟨{ p with mute := false }, .of rfl, ⟨⟨hp.between.start, hp.between.bound⟩, hp.ahead, rfl, hp.low, hp.last, hp.curly, hp.raw⟩,
    ⟨rfl, rfl, rfl, rfl, rfl, rfl, fun _ => ⟨[], by simp⟩⟩⟩

/-- Reading a token. -/
theorem Eats.read {t : Token} (hv : skipped t.type = false) :
    Eats (fun _ => readToken) k pv (t :: l) t (k + 1) (some t) l := by
  intro p hp
  have ha := hp.ahead
  have hb := hp.between.bound
  cases hd : p.queue.drop p.pos with
  | cons u d =>
    rw [hd] at ha
    simp only [List.cons_append, List.cons.injEq] at ha
    obtain ⟨rfl, ha⟩ := ha
    have hlt : p.pos < p.queue.length := by
      rcases Nat.lt_or_ge p.pos p.queue.length with h | h
      · exact h
      · rw [List.drop_of_length_le h] at hd; cases hd
    have hd' : p.queue.drop (p.pos + 1) = d := by
      rw [List.drop_eq_getElem_cons hlt] at hd
      exact (List.cons.inj hd).2
    have hu : p.queue[p.pos]? = some u := by
      rw [List.drop_eq_getElem_cons hlt] at hd
      rw [List.getElem?_eq_getElem hlt, (List.cons.inj hd).1]
    cases hr : p.restore with
    | true =>
      refine ⟨{ p with pos := p.pos + 1 }, .of (read_here hr hu hv), ⟨⟨fun h => ?_, hlt⟩, ?_, hp.mute, fun h => ?_, fun _ t e => ?_, hp.curly, hp.raw⟩,
        ⟨rfl, rfl, rfl, rfl, rfl, rfl, fun _ => ⟨[], by simp, rfl⟩⟩⟩
      · rw [hr] at h; cases h
      · rw [hd']; exact ha
      · have := hp.low hr
        show k + 1 ≤ p.pos + 1
        omega
      · cases e
        exact ⟨Nat.succ_le_succ (Nat.zero_le _), by simpa using hu⟩
    | false =>
      have h0 : p.pos = 0 := hp.between.start hr
      rw [h0] at hd hd'
      refine ⟨{ p with queue := d }, .of ?_, ⟨⟨fun _ => h0, by simp [h0]⟩, by simpa [h0] using ha, hp.mute, fun h => ?_, fun h => ?_, hp.curly, hp.raw⟩,
        ⟨rfl, rfl, rfl, rfl, rfl, rfl, fun h => ?_⟩⟩
      · unfold readToken
        rw [h0, hd]
        unfold readQueued
        rw [if_neg (by simp [h0])]
        dsimp only
        rw [if_neg (show ¬skipped u.type = true by rw [hv]; simp), if_neg (show ¬p.restore = true by rw [hr]; simp)]
        simp only [h0]
      · rw [hr] at h; cases h
      · rw [hr] at h; cases h
      · rw [hr] at h; cases h
  | nil =>
    rw [hd] at ha
    have hs : p.src.l = t :: l := ha
    have hlen : p.queue.length ≤ p.pos := by
      rcases Nat.lt_or_ge p.pos p.queue.length with h | h
      · rw [List.drop_eq_getElem_cons h] at hd; cases hd
      · exact h
    have hpos : p.pos = p.queue.length := by omega
    have hn : Source.next p.angles p.src = some ([], t, ⟨l⟩) := by
      simp only [Source.next, hs]
      rw [if_neg (by rw [hv]; simp)]
    have hread : readToken p = if p.restore = true then
        .ok t { p with src := ⟨l⟩, queue := p.queue ++ [] ++ [t], pos := p.pos + 0 + 1, seen := p.seen ++ [] }
        else .ok t { p with src := ⟨l⟩, seen := p.seen ++ [] } := by
      unfold readToken
      rw [hd]
      simp only [readQueued, hn, List.length_nil]
    cases hr : p.restore with
    | true =>
      rw [if_pos hr] at hread
      refine ⟨_, .of hread, ⟨⟨fun h => ?_, ?_⟩, ?_, hp.mute, fun h => ?_, fun _ t e => ?_, hp.curly, hp.raw⟩,
        ⟨rfl, rfl, rfl, rfl, rfl, List.append_nil _, fun _ => ⟨[t], by simp, hs⟩⟩⟩
      · dsimp only at h; rw [hr] at h; cases h
      · simp [hpos]
      · simp [hpos]
      · have := hp.low hr
        show k + 1 ≤ p.pos + 0 + 1
        omega
      · cases e
        simp [hpos]
    | false =>
      have h0 : p.pos = 0 := hp.between.start hr
      rw [if_neg (by rw [hr]; simp)] at hread
      have hq : p.queue = [] := by
        rw [h0] at hlen
        exact List.length_eq_zero_iff.mp (by omega)
      refine ⟨_, .of hread, ⟨⟨fun _ => h0, hb⟩, ?_, hp.mute, fun h => ?_, fun h => ?_, hp.curly, hp.raw⟩,
        ⟨rfl, rfl, rfl, rfl, rfl, List.append_nil _, fun h => ?_⟩⟩
      · simp [hq]
      · dsimp only at h; rw [hr] at h; cases h
      · dsimp only at h; rw [hr] at h; cases h
      · rw [hr] at h; cases h

/-- Pushing back the token that was read last. -/
theorem Eats.push {t : Token} : Eats (fun _ => pushBack t) (k + 1) (some t) l () k none (t :: l) := by
  intro p hp
  have ha := hp.ahead
  cases hr : p.restore with
  | true =>
    obtain ⟨h1, h2⟩ := hp.last hr t rfl
    obtain ⟨j, hj⟩ : ∃ j, p.pos = j + 1 := ⟨p.pos - 1, by omega⟩
    rw [hj] at h2
    simp only [Nat.add_sub_cancel] at h2
    refine ⟨_, .of (push_here hj h2), ⟨⟨fun h => ?_, ?_⟩, ?_, hp.mute, fun _ => ?_, fun _ t e => (by cases e), hp.curly, hp.raw⟩,
      ⟨rfl, rfl, rfl, rfl, rfl, rfl, fun _ => ⟨[], by simp, rfl⟩⟩⟩
    · dsimp only at h; rw [hr] at h; cases h
    · have := hp.between.bound
      show j ≤ p.queue.length
      omega
    · obtain ⟨hlt, e⟩ := List.getElem?_eq_some_iff.mp h2
      dsimp only
      rw [List.drop_eq_getElem_cons hlt, e, ← ha, hj]
      rfl
    · have := hp.low hr
      show k ≤ j
      omega
  | false =>
    have h0 : p.pos = 0 := hp.between.start hr
    refine ⟨{ p with queue := t :: p.queue }, .of ?_, ⟨⟨fun _ => h0, by simp [h0]⟩, ?_, hp.mute, fun h => ?_, fun h => ?_, hp.curly, hp.raw⟩,
      ⟨rfl, rfl, rfl, rfl, rfl, rfl, fun h => ?_⟩⟩
    · unfold pushBack
      rw [if_neg (by omega)]
    · rw [h0] at ha ⊢
      simpa using ha
    · dsimp only at h; rw [hr] at h; cases h
    · dsimp only at h; rw [hr] at h; cases h
    · rw [hr] at h; cases h

theorem Eats.peek {t : Token} (hv : skipped t.type = false) :
    Eats (fun _ => peek) k pv (t :: l) t k none (t :: l) :=
  (Eats.read hv).bind (Eats.push.bind (Eats.pure t))

theorem Eats.activity {t : Token} (hv : skipped t.type = false) :
    Eats (fun _ => activity) k pv (t :: l) (0, t.loc) k none (t :: l) := by
  intro p hp
  obtain ⟨q, ⟨N, r⟩, hq, kp⟩ := (Eats.peek (pv := pv) hv) p hp
  refine ⟨q, ⟨N, fun n hn => ?_⟩, hq, kp⟩
  refine (bind_ok (show getP p = .ok p p from rfl)).trans ?_
  refine (bind_ok (r n hn)).trans ?_
  rw [hp.raw]
  rfl

theorem Eats.failedSince : Eats (fun _ => failedSince 0) k pv l false k pv l := by
  intro p hp
  refine ⟨p, .of ?_, hp, .refl p⟩
  unfold CppParse.failedSince
  simp [hp.raw]

theorem scopeFlags_curly {a : Accept} {t : TT} {x : Accept × Bool} (ha : a.openCurly = false)
    (h : scopeFlags a t = some x) : x.1.openCurly = false := by
  cases t <;> simp [scopeFlags] at h <;> subst h <;> simp [ha]

/-- Inside a scope. -/
theorem Eats.inScope {f : Rec → M Lim β} {b : β} {t : TT}
    (ht : t = .openCurly ∨ t = .openParen ∨ t = .openAngle ∨ t = .openSquare) (h : Eats f k pv l b k' pv' l') :
    Eats (fun x => inScope t (f x)) k pv l b k' pv' l' := by
  intro p hp
  obtain ⟨a, ha⟩ : ∃ a, scopeFlags p.accept t = some a := by
    rcases ht with rfl | rfl | rfl | rfl <;> exact ⟨_, rfl⟩
  obtain ⟨q, ⟨N, r⟩, hq, kp⟩ := h { p with accept := a.1, angles := a.2 }
    ⟨⟨hp.between.start, hp.between.bound⟩, hp.ahead, hp.mute, hp.low, hp.last, scopeFlags_curly hp.curly ha, hp.raw⟩
  refine ⟨{ q with accept := p.accept, angles := p.angles }, ⟨N, fun n hn => ?_⟩,
    ⟨⟨hq.between.start, hq.between.bound⟩, hq.ahead, hq.mute, hq.low, hq.last, hp.curly, hq.raw⟩,
    ⟨kp.restore, rfl, rfl, kp.raw, kp.errs, kp.seen, kp.grow⟩⟩
  show CppParse.inScope t (f (go n)) p = _
  unfold CppParse.inScope
  rw [ha]
  obtain ⟨a1, a2⟩ := a
  dsimp only at r ⊢
  rw [r n hn]

theorem Eats.withAngles {f : Rec → M Lim β} {b : β} (h : Eats f k pv l b k' pv' l') :
    Eats (fun x => withAngles (f x)) k pv l b k' pv' l' := by
  intro p hp
  obtain ⟨q, ⟨N, r⟩, hq, kp⟩ := h { p with angles := true }
    ⟨⟨hp.between.start, hp.between.bound⟩, hp.ahead, hp.mute, hp.low, hp.last, hp.curly, hp.raw⟩
  refine ⟨{ q with angles := p.angles }, ⟨N, fun n hn => ?_⟩,
    ⟨⟨hq.between.start, hq.between.bound⟩, hq.ahead, hq.mute, hq.low, hq.last, hq.curly, hq.raw⟩,
    ⟨kp.restore, kp.accept, rfl, kp.raw, kp.errs, kp.seen, kp.grow⟩⟩
  show CppParse.withAngles (f (go n)) p = _
  unfold CppParse.withAngles
  rw [r n hn]

/-- A region that is tried, succeeds and is kept: `g r` does what `f` does, up to the end of the restore point,
and goes on with `h r`. -/
theorem Eats.region {γ : Type} {f : Rec → M Lim α} {g : Rec → RP → M Lim γ} {a : α} {c : γ}
    {h : Rec → M Lim γ} (hk : 1 ≤ k) (hk' : 1 ≤ k') (hf : Eats f 0 none l a k' pv' l')
    (hg : ∀ r n (p q s : PL), r.raw = 0 → q.raw = 0 → f (go n) p = .ok a q → r.cancel q = .ok () s →
      g (go n) r p = h (go n) s)
    (hh : Eats h 1 none l' c k'' pv'' l'') :
    Eats (fun x => mark >>= g x) k pv l c k'' pv'' l'' := by
  intro p hp
  have hm : mark p = .ok ⟨p.restore, p.pos, p.raw⟩ { p with restore := true } := by
    unfold mark
    rw [if_neg]
    rintro ⟨h1, h2⟩
    exact h2 (hp.between.start h1)
  obtain ⟨q, ⟨N, r⟩, hq, kp⟩ := hf { p with restore := true }
    ⟨⟨fun x => (by cases x), hp.between.bound⟩, hp.ahead, hp.mute, fun _ => Nat.zero_le _, fun _ t e => (by cases e),
      hp.curly, hp.raw⟩
  obtain ⟨x, hx1, hx2⟩ := kp.grow rfl
  dsimp only at hx1 hx2
  have hqr : q.restore = true := kp.restore
  have hlow := hq.low hqr
  have : ∃ s, (RP.mk p.restore p.pos p.raw).cancel q = .ok () s ∧ At 1 none l' s ∧ Keep p s := by
    unfold RP.cancel
    rw [if_neg (by dsimp only; rw [kp.raw]; simp)]
    dsimp only
    by_cases h0 : p.pos = 0
    · have hr : p.restore = false := by
        cases hr : p.restore with
        | false => rfl
        | true => have := hp.low hr; omega
      rw [if_pos h0, if_neg (by rw [hr]; simp)]
      refine ⟨_, rfl, ⟨⟨fun _ => rfl, Nat.zero_le _⟩, by simpa using hq.ahead, hq.mute, fun h => ?_, fun h => ?_, hq.curly, hq.raw⟩,
        ⟨rfl, kp.accept, kp.angles, kp.raw, kp.errs, kp.seen, fun h => ?_⟩⟩
      · dsimp only at h; rw [hr] at h; cases h
      · dsimp only at h; rw [hr] at h; cases h
      · rw [hr] at h; cases h
    · have hr : p.restore = true := by
        cases hr : p.restore with
        | true => rfl
        | false => exact absurd (hp.between.start hr) h0
      rw [if_neg h0]
      refine ⟨_, rfl, ⟨⟨fun h => ?_, hq.between.bound⟩, hq.ahead, hq.mute, fun _ => ?_, fun _ t e => (by cases e), hq.curly, hq.raw⟩,
        ⟨rfl, kp.accept, kp.angles, kp.raw, kp.errs, kp.seen, fun _ => ⟨x, hx1, hx2⟩⟩⟩
      · dsimp only at h; rw [hr] at h; cases h
      · exact Nat.le_trans hk' hlow
  obtain ⟨s, hc, hs, ks⟩ := this
  obtain ⟨w, ⟨N', r'⟩, hw, kw⟩ := hh s hs
  refine ⟨w, ⟨max N N', fun n hn => ?_⟩, hw, ks.trans kw⟩
  refine (bind_ok hm).trans ?_
  rw [hg _ n _ _ _ hp.raw hq.raw (r n (by omega)) hc]
  exact r' n (by omega)

end

end Verif.CppParse

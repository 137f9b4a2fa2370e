import Verif.CppParse.Spec
import Verif.CppParse.Lemmas
/-! # The parser for C++ — lemmas: going forward -/
namespace Verif.CppParse
open Verif Verif.Cpp

variable {σ : Type} [Source σ] {ρ : Prop}

theorem Supply.trans {s s' s'' : σ} {e e' : List Token} (h : Supply s e s') (h' : Supply s' e' s'') :
    Supply s (e ++ e') s'' := by
  induction h with
  | nil _ => exact h'
  | cons h _ ih => exact .cons h (ih h')

omit [Source σ] in
theorem Frame.refl {p : P σ} (h : Between p) : Frame p p where
  between := h
  restore := rfl
  accept := rfl
  angles := rfl
  raw := Nat.le_refl _
  errs := List.prefix_refl _
  seen := List.prefix_refl _
  noErr := fun _ => rfl
  quiet := fun _ => rfl

omit [Source σ] in
theorem Frame.trans {p q r : P σ} (h : Frame p q) (h' : Frame q r) : Frame p r where
  between := h'.between
  restore := h'.restore.trans h.restore
  accept := h'.accept.trans h.accept
  angles := h'.angles.trans h.angles
  raw := Nat.le_trans h.raw h'.raw
  errs := h.errs.trans h'.errs
  seen := h.seen.trans h'.seen
  noErr := fun x => by
    have := h.raw
    have := h'.raw
    rw [h'.noErr (by omega), h.noErr (by omega)]
  quiet := fun x => by rw [h'.quiet (by rw [h.restore]; exact x), h.quiet x]

omit [Source σ] in
theorem Reports.refl (p : P σ) : Reports p p := fun h => ⟨fun _ => h, fun _ => .inl ⟨rfl, rfl, h⟩⟩

omit [Source σ] in
theorem Reports.trans {p q r : P σ} (h : Reports p q) (h' : Reports q r) (f : Frame p q) (f' : Frame q r) :
    Reports p r := by
  intro m
  obtain ⟨a, b⟩ := h m
  refine ⟨fun hr => ?_, fun hr => ?_⟩
  · exact (h' (a hr)).1 (by rw [f.restore]; exact hr)
  · have lq := f.errs.length_le
    have lr := f'.errs.length_le
    rcases b hr with ⟨c, d, e⟩ | c
    · rcases (h' e).2 (by rw [f.restore]; exact hr) with ⟨c', d', e'⟩ | c'
      · exact .inl ⟨c'.trans c, d'.trans d, e'⟩
      · right; rw [d] at c'; exact c'
    · right; omega

theorem Adv.refl {p : P σ} (h : Between p) : Adv ρ p p :=
  ⟨[], [], .nil _, by simp, Frame.refl h, fun _ => ⟨[], by simp⟩, fun _ _ => Reports.refl p⟩

theorem Moves.trans {e e' w w' : List Token} {p q r : P σ} (h : Moves ρ e w p q) (h' : Moves ρ e' w' q r) :
    Moves ρ (e ++ e') (w ++ w') p r := by
  obtain ⟨a, b, c, d, f⟩ := h
  obtain ⟨a', b', c', d', f'⟩ := h'
  refine ⟨a.trans a', ?_, c.trans c', ?_, ?_⟩
  · rw [← List.append_assoc, b, List.append_assoc, b', List.append_assoc]
  · intro x
    obtain ⟨y, hy, hy2, hy3⟩ := d x
    obtain ⟨z, hz, hz2, hz3⟩ := d' (by rw [c.restore]; exact x)
    exact ⟨y ++ z, by rw [hz, hy, List.append_assoc], by rw [List.filter_append, hy2, hz2], by omega⟩
  · intro hρ n
    refine (f hρ ?_).trans (f' hρ ?_) c c'
    · intro t ht
      apply n
      rw [← List.append_assoc]
      exact List.mem_append_left _ ht
    · intro t ht
      apply n
      rw [← List.append_assoc, b, List.append_assoc]
      exact List.mem_append_right _ ht

theorem Adv.trans {p q r : P σ} (h : Adv ρ p q) (h' : Adv ρ q r) : Adv ρ p r := by
  obtain ⟨e, w, m⟩ := h
  obtain ⟨e', w', m'⟩ := h'
  exact ⟨_, _, m.trans m'⟩

theorem Adv.between {p q : P σ} (h : Adv ρ p q) : Between q := by
  obtain ⟨_, _, _, _, f, _⟩ := h
  exact f.between

theorem Adv.weaken {p q : P σ} (h : Adv ρ p q) : Adv False p q := by
  obtain ⟨e, w, a, b, c, d, f⟩ := h
  exact ⟨e, w, a, b, c, d, fun x => x.elim⟩

/-- `t` was read when the state was `p0`; it is `p` now. -/
def Got (ρ : Prop) (t : Token) (p0 p : P σ) : Prop :=
  visible t = true ∧ (∃ e, Moves ρ e [t] p0 p) ∧
  (p.restore = true → p0.pos + 1 ≤ p.pos ∧ p.queue[p.pos - 1]? = some t)

theorem Got.adv {t : Token} {p0 p : P σ} (h : Got ρ t p0 p) : Adv ρ p0 p := by
  obtain ⟨_, ⟨e, m⟩, _⟩ := h
  exact ⟨e, _, m⟩

/-! ## The judgements -/

/-- `m` goes forward. -/
def Fwd (ρ : Prop) {β : Type} (m : M σ β) : Prop :=
  ∀ p b q, Between p → m p = .ok b q → Adv ρ p q

/-- `m` goes forward from where `t` was read. -/
def FwdT (ρ : Prop) (t : Token) {β : Type} (m : M σ β) : Prop :=
  ∀ p0 p b q, Between p0 → Got ρ t p0 p → m p = .ok b q → Adv ρ p0 q

/-- `m` goes forward, and the token in its result is the one that it read last. -/
def Gets (ρ : Prop) {β : Type} (m : M σ β) (f : β → Token) : Prop :=
  ∀ p b q, Between p → m p = .ok b q → ∃ p', Adv ρ p p' ∧ Got ρ (f b) p' q

/-- The same, where `t` was read before. -/
def GetsT (ρ : Prop) (t : Token) {β : Type} (m : M σ β) (f : β → Token) : Prop :=
  ∀ p0 p b q, Between p0 → Got ρ t p0 p → m p = .ok b q → ∃ p', Adv ρ p0 p' ∧ Got ρ (f b) p' q

/-- The restore point `r` was made when the state was `p0`; it is `p` now. -/
def InRP (ρ : Prop) (r : RP) (p0 p : P σ) : Prop :=
  r = ⟨p0.restore, p0.pos, p0.raw⟩ ∧ Adv ρ { p0 with restore := true } p

/-- `m` goes forward from where the restore point was made, and ends its life. -/
def FwdR (ρ : Prop) (r : RP) {β : Type} (m : M σ β) : Prop :=
  ∀ p0 p b q, Between p0 → InRP ρ r p0 p → m p = .ok b q → Adv ρ p0 q

/-- `m` changes at most errors. -/
def Still (ρ : Prop) {β : Type} (m : M σ β) : Prop :=
  ∀ p b q, m p = .ok b q →
    q.src = p.src ∧ q.queue = p.queue ∧ q.pos = p.pos ∧ q.restore = p.restore ∧ q.accept = p.accept ∧
    q.angles = p.angles ∧ q.seen = p.seen ∧ p.raw ≤ q.raw ∧ p.errs <+: q.errs ∧
    (q.raw = p.raw → q.errs = p.errs) ∧ (p.restore = true → q.errs = p.errs) ∧ (ρ → Reports p q)

theorem Still.adv {β : Type} {m : M σ β} (h : Still ρ m) {p q : P σ} {b : β} (w : Between p)
    (x : m p = .ok b q) : Moves ρ [] [] p q := by
  obtain ⟨h1, h2, h3, h4, h5, h6, h7, h8, h9, h10, h11, h12⟩ := h p b q x
  refine ⟨by rw [h1]; exact .nil _, ?_, ⟨⟨?_, ?_⟩, h4, h5, h6, h8, h9, by rw [h7]; exact List.prefix_refl _, h10, h11⟩,
    ?_, fun a _ => h12 a⟩
  · simp [pending, h2, h3]
  · rw [h4, h3]; exact w.start
  · rw [h2, h3]; exact w.bound
  · intro _
    exact ⟨[], by simp [h2], rfl, by omega⟩

theorem Still.fwd {β : Type} {m : M σ β} (h : Still ρ m) : Fwd ρ m :=
  fun _ _ _ w x => ⟨_, _, h.adv w x⟩

theorem Still.got {β : Type} {m : M σ β} (h : Still ρ m) {p0 p q : P σ} {b : β} {t : Token}
    (g : Got ρ t p0 p) (x : m p = .ok b q) : Got ρ t p0 q := by
  obtain ⟨v, ⟨e, mv⟩, r⟩ := g
  have a := h.adv mv.2.2.1.between x
  obtain ⟨h1, h2, h3, h4, -⟩ := h p b q x
  refine ⟨v, ⟨e, ?_⟩, ?_⟩
  · have := mv.trans a
    rwa [List.append_nil, List.append_nil] at this
  · rw [h4, h3, h2]; exact r

omit [Source σ] in
theorem bind_inv {α β : Type} {m : M σ α} {f : α → M σ β} {p q : P σ} {b : β} (h : (m >>= f) p = .ok b q) :
    ∃ a p', m p = .ok a p' ∧ f a p' = .ok b q := by
  cases e : m p with
  | ok a p' => rw [bind_ok e] at h; exact ⟨a, p', rfl, h⟩
  | stop s => rw [bind_stop e] at h; cases h

/-! ## Rules -/

theorem Fwd.pure {β : Type} (b : β) : Fwd ρ (pure b : M σ β) := by
  intro p b' q w h
  cases h
  exact Adv.refl w

theorem Fwd.bind {α β : Type} {m : M σ α} {f : α → M σ β} (h : Fwd ρ m) (hf : ∀ a, Fwd ρ (f a)) :
    Fwd ρ (m >>= f) := by
  intro p b q w x
  obtain ⟨a, p', x1, x2⟩ := bind_inv x
  have a1 := h p a p' w x1
  exact a1.trans (hf a p' b q a1.between x2)

theorem Fwd.gets {α β : Type} {m : M σ α} {g : α → Token} {f : α → M σ β} (h : Gets ρ m g)
    (hf : ∀ a, FwdT ρ (g a) (f a)) : Fwd ρ (m >>= f) := by
  intro p b q w x
  obtain ⟨a, p', x1, x2⟩ := bind_inv x
  obtain ⟨p'', a1, g1⟩ := h p a p' w x1
  exact a1.trans (hf a p'' p' b q a1.between g1 x2)

theorem FwdT.weak {β : Type} {t : Token} {m : M σ β} (h : Fwd ρ m) : FwdT ρ t m := by
  intro p0 p b q w g x
  exact g.adv.trans (h p b q g.adv.between x)

theorem FwdT.pure {β : Type} {t : Token} (b : β) : FwdT ρ t (pure b : M σ β) := FwdT.weak (Fwd.pure b)

theorem FwdT.still {α β : Type} {t : Token} {m : M σ α} {f : α → M σ β} (h : Still ρ m)
    (hf : ∀ a, FwdT ρ t (f a)) : FwdT ρ t (m >>= f) := by
  intro p0 p b q w g x
  obtain ⟨a, p', x1, x2⟩ := bind_inv x
  exact hf a p0 p' b q w (h.got g x1) x2

theorem FwdT.gets {α β : Type} {t : Token} {m : M σ α} {g : α → Token} {f : α → M σ β} (h : GetsT ρ t m g)
    (hf : ∀ a, FwdT ρ (g a) (f a)) : FwdT ρ t (m >>= f) := by
  intro p0 p b q w gt x
  obtain ⟨a, p', x1, x2⟩ := bind_inv x
  obtain ⟨p'', a1, g1⟩ := h p0 p a p' w gt x1
  exact a1.trans (hf a p'' p' b q a1.between g1 x2)

theorem GetsT.weak {β : Type} {t : Token} {m : M σ β} {g : β → Token} (h : Gets ρ m g) : GetsT ρ t m g := by
  intro p0 p b q w gt x
  obtain ⟨p', a1, g1⟩ := h p b q gt.adv.between x
  exact ⟨p', gt.adv.trans a1, g1⟩

theorem GetsT.pure {t : Token} : GetsT ρ t (pure t : M σ Token) id := by
  intro p0 p b q w gt x
  cases x
  exact ⟨p0, Adv.refl w, gt⟩

theorem GetsT.pure2 {t : Token} {β : Type} (b : β) {g : β → Token} (h : g b = t) :
    GetsT ρ t (Pure.pure b : M σ β) g := by
  intro p0 p b q w gt x
  cases x
  subst h
  exact ⟨p0, Adv.refl w, gt⟩

theorem Gets.bind {α β : Type} {m : M σ α} {f : α → M σ β} {g : β → Token} (h : Fwd ρ m)
    (hf : ∀ a, Gets ρ (f a) g) : Gets ρ (m >>= f) g := by
  intro p b q w x
  obtain ⟨a, p', x1, x2⟩ := bind_inv x
  have a1 := h p a p' w x1
  obtain ⟨p'', a2, g2⟩ := hf a p' b q a1.between x2
  exact ⟨p'', a1.trans a2, g2⟩

theorem Gets.gets {α β : Type} {m : M σ α} {f : α → M σ β} {k : α → Token} {g : β → Token} (h : Gets ρ m k)
    (hf : ∀ a, GetsT ρ (k a) (f a) g) : Gets ρ (m >>= f) g := by
  intro p b q w x
  obtain ⟨a, p', x1, x2⟩ := bind_inv x
  obtain ⟨p'', a1, g1⟩ := h p a p' w x1
  obtain ⟨p3, a2, g2⟩ := hf a p'' p' b q a1.between g1 x2
  exact ⟨p3, a1.trans a2, g2⟩

theorem GetsT.still {α β : Type} {t : Token} {m : M σ α} {f : α → M σ β} {g : β → Token} (h : Still ρ m)
    (hf : ∀ a, GetsT ρ t (f a) g) : GetsT ρ t (m >>= f) g := by
  intro p0 p b q w gt x
  obtain ⟨a, p', x1, x2⟩ := bind_inv x
  exact hf a p0 p' b q w (h.got gt x1) x2

theorem Gets.fwd {β : Type} {m : M σ β} {g : β → Token} (h : Gets ρ m g) : Fwd ρ m := by
  intro p b q w x
  obtain ⟨p', a, gt⟩ := h p b q w x
  exact a.trans gt.adv

/-! ## Restore points -/

theorem Fwd.mark {β : Type} {f : RP → M σ β} (h : ∀ r, FwdR ρ r (f r)) : Fwd ρ (mark >>= f) := by
  intro p b q w x
  obtain ⟨r, p', x1, x2⟩ := bind_inv x
  unfold CppParse.mark at x1
  split at x1
  · cases x1
  · cases x1
    refine h _ p _ b q w ⟨rfl, Adv.refl ⟨fun h => (by cases h), w.bound⟩⟩ x2

theorem FwdR.bind {α β : Type} {r : RP} {m : M σ α} {f : α → M σ β} (h : Fwd ρ m)
    (hf : ∀ a, FwdR ρ r (f a)) : FwdR ρ r (m >>= f) := by
  intro p0 p b q w i x
  obtain ⟨a, p', x1, x2⟩ := bind_inv x
  exact hf a p0 p' b q w ⟨i.1, i.2.trans (h p a p' i.2.between x1)⟩ x2

theorem FwdR.backtrack {β : Type} {r : RP} {f : Unit → M σ β} (hf : FwdR ρ r (f ())) :
    FwdR ρ r (r.backtrack >>= f) := by
  intro p0 p b q w i x
  obtain ⟨a, p', x1, x2⟩ := bind_inv x
  obtain ⟨hr, e, w', s, t, fr, d, rep⟩ := i
  unfold RP.backtrack modP at x1
  cases x1
  obtain ⟨y, hy, hy2, hy3⟩ := d rfl
  dsimp only at hy hy3 t
  subst hr
  refine hf p0 { p with pos := p0.pos, raw := p0.raw } b q w ⟨rfl, e, [], s, ?_, ?_, ?_, ?_⟩ x2
  · unfold pending
    dsimp only
    rw [hy, List.drop_append_of_le_length w.bound, List.filter_append, hy2]
    rfl
  · refine ⟨⟨fun h => ?_, ?_⟩, fr.restore, fr.accept, fr.angles, Nat.le_refl _, fr.errs, fr.seen, fun _ => ?_, fr.quiet⟩
    · have := fr.restore
      dsimp only at this h
      rw [this] at h; cases h
    · dsimp only
      rw [hy, List.length_append]
      have := w.bound
      omega
    · exact fr.quiet rfl
  · intro _
    exact ⟨y, hy, hy2, Nat.le_refl _⟩
  · intro hρ n m
    refine ⟨fun _ => (rep hρ n m).1 rfl, fun h => by cases h⟩

theorem InRP.cancel {r : RP} {p0 p q : P σ} (w : Between p0) (i : InRP ρ r p0 p) {u : Unit}
    (x : r.cancel p = .ok u q) : Adv ρ p0 q := by
  obtain ⟨hr, e, w', s, t, fr, d, rep⟩ := i
  subst hr
  unfold RP.cancel at x
  dsimp only at x
  split at x
  · cases x
  · rename_i hraw
    have hraw : p.raw = p0.raw := by omega
    have herr : p.errs = p0.errs := fr.quiet rfl
    obtain ⟨y, hy, hy2, hy3⟩ := d rfl
    dsimp only at hy hy3 t
    split at x
    · rename_i hpos
      split at x
      · cases x
      · rename_i hwas
        have hwas : p0.restore = false := by simpa using hwas
        cases x
        refine ⟨e, w', s, ?_, ⟨⟨fun _ => rfl, Nat.zero_le _⟩, rfl, fr.accept, fr.angles, ?_, fr.errs, fr.seen,
          fun _ => herr, fun h => ?_⟩, fun h => ?_, fun hρ n m => ⟨fun h => ?_, fun _ => .inl ⟨hraw, herr, (rep hρ n m).1 rfl⟩⟩⟩
        · simpa only [pending, List.drop_zero] using t
        · dsimp only; omega
        · rw [hwas] at h; cases h
        · rw [hwas] at h; cases h
        · rw [hwas] at h; cases h
    · rename_i hpos
      have hwas : p0.restore = true := by
        cases h : p0.restore with
        | true => rfl
        | false => exact absurd (w.start h) hpos
      cases x
      refine ⟨e, w', s, t, ⟨⟨fun h => ?_, fr.between.bound⟩, rfl, fr.accept, fr.angles, ?_, fr.errs, fr.seen,
          fun _ => herr, fun _ => herr⟩, fun _ => ⟨y, hy, hy2, hy3⟩, fun hρ n m => ⟨fun _ => (rep hρ n m).1 rfl, fun h => ?_⟩⟩
      · dsimp only at h; rw [hwas] at h; cases h
      · dsimp only; omega
      · rw [hwas] at h; cases h

theorem FwdR.cancel {β : Type} {r : RP} {f : Unit → M σ β} (hf : Fwd ρ (f ())) :
    FwdR ρ r (r.cancel >>= f) := by
  intro p0 p b q w i x
  obtain ⟨a, p', x1, x2⟩ := bind_inv x
  have := i.cancel w x1
  exact this.trans (hf p' b q this.between x2)

theorem FwdR.cancel' {r : RP} : FwdR (σ := σ) ρ r r.cancel := by
  intro p0 p b q w i x
  exact i.cancel w x

theorem FwdR.checkFalse {β : Type} {r : RP} {f : Unit → M σ β} : FwdR ρ r (check false >>= f) := by
  intro p0 p b q w i x
  obtain ⟨a, p', x1, x2⟩ := bind_inv x
  unfold check at x1
  simp at x1

/-! ## The basic functions -/

omit [Source σ] in
theorem Still.refl {p : P σ} :
    p.src = p.src ∧ p.queue = p.queue ∧ p.pos = p.pos ∧ p.restore = p.restore ∧ p.accept = p.accept ∧
    p.angles = p.angles ∧ p.seen = p.seen ∧ p.raw ≤ p.raw ∧ p.errs <+: p.errs ∧
    (p.raw = p.raw → p.errs = p.errs) ∧ (p.restore = true → p.errs = p.errs) ∧ (ρ → Reports p p) :=
  ⟨rfl, rfl, rfl, rfl, rfl, rfl, rfl, Nat.le_refl _, List.prefix_refl _, fun _ => rfl, fun _ => rfl,
    fun _ => Reports.refl p⟩

omit [Source σ] in
theorem still_pure {β : Type} (b : β) : Still ρ (pure b : M σ β) := by
  intro p b' q h; cases h; exact Still.refl

omit [Source σ] in
theorem still_check (b : Bool) : Still ρ (check b : M σ Unit) := by
  intro p b' q h
  unfold check at h
  split at h
  · cases h; exact Still.refl
  · cases h

omit [Source σ] in
theorem still_getP : Still ρ (getP : M σ (P σ)) := by
  intro p b' q h; cases h; exact Still.refl

omit [Source σ] in
theorem still_failedSince (n : Nat) : Still ρ (failedSince n : M σ Bool) := by
  intro p b' q h; cases h; exact Still.refl

omit [Source σ] in
theorem still_anyTokensConsumed (n : Int) : Still ρ (anyTokensConsumed n : M σ Bool) := by
  intro p b' q h
  unfold anyTokensConsumed at h
  split at h <;> (cases h; exact Still.refl)

omit [Source σ] in
theorem still_unmute : Still ρ (unmute : M σ Unit) := by
  intro p b' q h
  cases h
  exact ⟨rfl, rfl, rfl, rfl, rfl, rfl, rfl, Nat.le_refl _, List.prefix_refl _, fun _ => rfl, fun _ => rfl,
    fun _ _ => ⟨fun _ => rfl, fun _ => .inl ⟨rfl, rfl, rfl⟩⟩⟩

omit [Source σ] in
theorem still_mute : Still False (modP fun p => { p with mute := true } : M σ Unit) := by
  intro p b' q h
  cases h
  exact ⟨rfl, rfl, rfl, rfl, rfl, rfl, rfl, Nat.le_refl _, List.prefix_refl _, fun _ => rfl, fun _ => rfl,
    fun x => x.elim⟩

omit [Source σ] in
theorem still_error (b : Bool) (e : PErr) : Still ρ (error b e : M σ Unit) := by
  intro p b' q h
  unfold error modP at h
  cases h
  dsimp only
  by_cases hr : p.restore = true
  · simp only [hr, if_true]
    refine ⟨trivial, trivial, trivial, trivial, trivial, trivial, trivial, by omega, List.prefix_refl _, fun _ => trivial, fun _ => trivial, fun _ hm => ⟨fun _ => hm, fun h => ?_⟩⟩
    rw [hr] at h; cases h
  · have hr : p.restore = false := by simpa using hr
    simp only [hr, Bool.false_eq_true, if_false]
    refine ⟨trivial, trivial, trivial, trivial, trivial, trivial, trivial, by omega, ?_, fun h => ?_, fun h => ?_, fun _ hm => ⟨fun h => ?_, fun _ => .inr ?_⟩⟩
    · split
      · exact List.prefix_refl _
      · exact List.prefix_append _ _
    · exact absurd h (by omega)
    · cases h
    · rw [hr] at h; cases h
    · simp [hm]

omit [Source σ] in
theorem still_expected (t : Token) (x : Exp) (u : Token) : Still ρ (expected t x u : M σ Unit) :=
  still_error _ _

omit [Source σ] in
theorem Still.bind {α β : Type} {m : M σ α} {f : α → M σ β} (h : Still ρ m) (hf : ∀ a, Still ρ (f a)) :
    Still ρ (m >>= f) := by
  intro p b q x
  obtain ⟨a, p', x1, x2⟩ := bind_inv x
  obtain ⟨h1, h2, h3, h4, h5, h6, h7, h8, h9, h10, h11, h12⟩ := h p a p' x1
  obtain ⟨k1, k2, k3, k4, k5, k6, k7, k8, k9, k10, k11, k12⟩ := hf a p' b q x2
  refine ⟨k1.trans h1, k2.trans h2, k3.trans h3, k4.trans h4, k5.trans h5, k6.trans h6, k7.trans h7, by omega,
    h9.trans k9, fun x => ?_, fun x => ?_, fun hρ m => ?_⟩
  · rw [k10 (by omega), h10 (by omega)]
  · rw [k11 (by rw [h4]; exact x), h11 x]
  · obtain ⟨a1, b1⟩ := h12 hρ m
    refine ⟨fun x => (k12 hρ (a1 x)).1 (by rw [h4]; exact x), fun x => ?_⟩
    have := h9.length_le
    have := k9.length_le
    rcases b1 x with ⟨c, d, e⟩ | c
    · rcases (k12 hρ e).2 (by rw [h4]; exact x) with ⟨c', d', e'⟩ | c'
      · exact .inl ⟨c'.trans c, d'.trans d, e'⟩
      · right; rw [d] at c'; exact c'
    · right; omega

omit [Source σ] in
theorem Still.ite {β : Type} {c : Prop} [Decidable c] {a b : M σ β} (ha : Still ρ a) (hb : Still ρ b) :
    Still ρ (if c then a else b) := by
  split
  · exact ha
  · exact hb

theorem Fwd.ite {β : Type} {c : Prop} [Decidable c] {a b : M σ β} (ha : Fwd ρ a) (hb : Fwd ρ b) :
    Fwd ρ (if c then a else b) := by
  split
  · exact ha
  · exact hb

theorem FwdT.ite {β : Type} {t : Token} {c : Prop} [Decidable c] {a b : M σ β} (ha : FwdT ρ t a)
    (hb : FwdT ρ t b) : FwdT ρ t (if c then a else b) := by
  split
  · exact ha
  · exact hb

theorem FwdR.ite {β : Type} {t : RP} {c : Prop} [Decidable c] {a b : M σ β} (ha : FwdR ρ t a)
    (hb : FwdR ρ t b) : FwdR ρ t (if c then a else b) := by
  split
  · exact ha
  · exact hb

/-! ## Reading and pushing back -/

omit [Source σ] in
/-- What `readQueued` leaves. -/
theorem readQueued_spec (l : List Token) (p q : P σ) (o : Option Token) (w : Between p)
    (hl : p.queue.drop p.pos = l) (h : readQueued l p = .ok o q) :
    q.src = p.src ∧ q.restore = p.restore ∧ q.accept = p.accept ∧ q.angles = p.angles ∧ q.raw = p.raw ∧
    q.errs = p.errs ∧ q.mute = p.mute ∧ p.seen <+: q.seen ∧ Between q ∧
    (p.restore = true → q.queue = p.queue ∧ p.pos ≤ q.pos) ∧
    (o = none → pending p = [] ∧ q.queue.drop q.pos = []) ∧
    (∀ t, o = some t → visible t = true ∧ pending p = t :: pending q ∧
      (p.restore = true → p.pos + 1 ≤ q.pos ∧ q.queue[q.pos - 1]? = some t)) := by
  induction l generalizing p with
  | nil =>
    unfold readQueued at h
    cases h
    refine ⟨rfl, rfl, rfl, rfl, rfl, rfl, rfl, List.prefix_refl _, w, fun _ => ⟨rfl, Nat.le_refl _⟩,
      fun _ => ⟨by rw [pending, hl]; rfl, hl⟩, fun t ht => by cases ht⟩
  | cons t l ih =>
    unfold readQueued at h
    rw [if_neg (by rintro ⟨a, b⟩; exact b (w.start a))] at h
    dsimp only at h
    have hlt : p.pos < p.queue.length := by
      refine Nat.lt_of_not_le fun hh => ?_
      rw [List.drop_eq_nil_of_le hh] at hl
      cases hl
    have hget : p.queue[p.pos]? = some t := by
      have : (p.queue.drop p.pos)[0]? = some t := by rw [hl]; rfl
      rw [List.getElem?_drop] at this
      simpa using this
    have hdrop : p.queue.drop (p.pos + 1) = l := by
      rw [← List.drop_drop, hl]; rfl
    have hpend : pending p = (t :: l).filter visible := by rw [pending, hl]
    by_cases hr : p.restore = true
    · simp only [hr, if_true] at h
      have wq : Between { p with pos := p.pos + 1 } :=
        ⟨fun x => (by dsimp only at x; rw [hr] at x; cases x), by dsimp only; omega⟩
      by_cases hs : skipped t.type = true
      · rw [if_pos hs] at h
        have := ih { p with pos := p.pos + 1, seen := p.seen ++ [t] } ⟨wq.1, wq.2⟩ hdrop
          (by rw [show { p with restore := true, pos := p.pos + 1, seen := p.seen ++ [t] } =
                ({ p with pos := p.pos + 1, seen := p.seen ++ [t] } : P σ) from by rw [← hr]] at h
              exact h)
        obtain ⟨a1, a2, a3, a4, a5, a6, a7, a8, a9, a10, a11, a12⟩ := this
        have hp2 : pending p = pending { p with pos := p.pos + 1, seen := p.seen ++ [t] } := by
          rw [hpend, List.filter_cons_of_neg (by rw [visible, hs]; simp)]
          rw [pending, hdrop]
        refine ⟨a1, a2, a3, a4, a5, a6, a7, (List.prefix_append _ _).trans a8, a9, fun _ => ?_, ?_, ?_⟩
        · obtain ⟨x, y⟩ := a10 hr
          exact ⟨x, by dsimp only at y; omega⟩
        · rw [hp2]; exact a11
        · rw [hp2]
          intro u hu
          obtain ⟨x, y, z⟩ := a12 u hu
          refine ⟨x, y, fun _ => ?_⟩
          obtain ⟨z1, z2⟩ := z hr
          exact ⟨by dsimp only at z1; omega, z2⟩
      · rw [if_neg hs] at h
        cases h
        have hv : visible t = true := by rw [visible]; simpa using hs
        refine ⟨rfl, hr.symm ▸ rfl, rfl, rfl, rfl, rfl, rfl, List.prefix_refl _, ⟨fun x => (by cases x), wq.2⟩,
          fun _ => ⟨rfl, Nat.le_succ _⟩, fun x => (by cases x), fun u hu => ?_⟩
        cases hu
        refine ⟨hv, ?_, fun _ => ⟨Nat.le_refl _, ?_⟩⟩
        · rw [hpend, List.filter_cons_of_pos hv, pending]
          dsimp only
          rw [hdrop]
        · dsimp only
          exact hget
    · have hr : p.restore = false := by simpa using hr
      have hz := w.start hr
      simp only [hr, Bool.false_eq_true, if_false] at h
      have wq : Between { p with queue := l } := ⟨fun _ => hz, by dsimp only; omega⟩
      by_cases hs : skipped t.type = true
      · rw [if_pos hs] at h
        have := ih { p with queue := l, seen := p.seen ++ [t] } ⟨wq.1, wq.2⟩
          (by dsimp only; rw [hz]; rfl)
          (by rw [show { p with restore := false, queue := l, seen := p.seen ++ [t] } =
                ({ p with queue := l, seen := p.seen ++ [t] } : P σ) from by rw [← hr]] at h
              exact h)
        obtain ⟨a1, a2, a3, a4, a5, a6, a7, a8, a9, a10, a11, a12⟩ := this
        have hp2 : pending p = pending { p with queue := l, seen := p.seen ++ [t] } := by
          rw [hpend, List.filter_cons_of_neg (by rw [visible, hs]; simp)]
          rw [pending, hz]; rfl
        refine ⟨a1, a2, a3, a4, a5, a6, a7, (List.prefix_append _ _).trans a8, a9, fun x => ?_, ?_, ?_⟩
        · rw [hr] at x; cases x
        · rw [hp2]; exact a11
        · rw [hp2]
          intro u hu
          obtain ⟨x, y, z⟩ := a12 u hu
          refine ⟨x, y, fun x => ?_⟩
          rw [hr] at x; cases x
      · rw [if_neg hs] at h
        cases h
        have hv : visible t = true := by rw [visible]; simpa using hs
        refine ⟨rfl, hr.symm ▸ rfl, rfl, rfl, rfl, rfl, rfl, List.prefix_refl _, ⟨fun _ => hz, wq.2⟩,
          fun x => ?_, fun x => (by cases x), fun u hu => ?_⟩
        · rw [hr] at x; cases x
        · cases hu
          refine ⟨hv, ?_, fun x => ?_⟩
          · rw [hpend, List.filter_cons_of_pos hv, pending]
            dsimp only
            rw [hz]; rfl
          · rw [hr] at x; cases x

theorem gets_readToken [Lawful σ] : Gets ρ (readToken : M σ Token) id := by
  intro p t q w x
  unfold readToken at x
  cases e : readQueued (p.queue.drop p.pos) p with
  | stop s => rw [e] at x; cases x
  | ok o q1 =>
    rw [e] at x
    obtain ⟨a1, a2, a3, a4, a5, a6, a7, a8, a9, a10, a11, a12⟩ := readQueued_spec _ p q1 o w rfl e
    have rep : ∀ q2 : P σ, q2.raw = p.raw → q2.errs = p.errs → q2.mute = p.mute → Reports p q2 :=
      fun q2 h1 h2 h3 m => ⟨fun _ => by rw [h3]; exact m, fun _ => .inl ⟨h1, h2, by rw [h3]; exact m⟩⟩
    cases o with
    | some u =>
      dsimp only at x
      cases x
      obtain ⟨b1, b2, b3⟩ := a12 t rfl
      refine ⟨p, Adv.refl w, b1, ⟨[], by rw [a1]; exact .nil _, ?_, ⟨a9, a2, a3, a4, by omega, by rw [a6]; exact List.prefix_refl _, a8, fun _ => a6, fun _ => a6⟩, ?_, fun _ _ => rep q a5 a6 a7⟩, ?_⟩
      · simpa using b2
      · intro hr
        obtain ⟨c1, c2⟩ := a10 hr
        exact ⟨[], by rw [c1]; simp, rfl, c2⟩
      · intro hr
        exact b3 (by rw [← a2]; exact hr)
    | none =>
      dsimp only at x
      obtain ⟨c1, c2⟩ := a11 rfl
      cases en : Source.next q1.angles q1.src with
      | none => rw [en] at x; cases x
      | some z =>
        obtain ⟨cs, t', s'⟩ := z
        rw [en] at x
        dsimp only at x
        obtain ⟨v, vs⟩ := Lawful.next_visible en
        have sup : Supply p.src [t'] s' := by rw [← a1]; exact .cons en (.nil _)
        have hfil : cs.filter visible = [] := by
          rw [List.filter_eq_nil_iff]
          intro c hc
          rw [vs c hc]; simp
        have hlen : q1.queue.length ≤ q1.pos := by
          have := congrArg List.length c2
          rw [List.length_drop] at this
          simp at this
          omega
        have hb := a9.bound
        by_cases hr : q1.restore = true
        · rw [if_pos hr] at x
          cases x
          have hrp : p.restore = true := by rw [← a2]; exact hr
          obtain ⟨d1, d2⟩ := a10 hrp
          refine ⟨p, Adv.refl w, v, ⟨[t], sup, ?_, ⟨⟨?_, ?_⟩, a2, a3, a4, by dsimp only; omega, by dsimp only; rw [a6]; exact List.prefix_refl _, a8.trans (List.prefix_append _ _), fun _ => a6, fun _ => a6⟩, ?_, fun _ _ => rep _ a5 a6 a7⟩, ?_⟩
          · unfold pending at c1 ⊢
            dsimp only
            rw [c1, List.drop_eq_nil_of_le (by simp; omega)]
            rfl
          · dsimp only; intro h; rw [hr] at h; cases h
          · simp; omega
          · intro _
            refine ⟨cs ++ [t], ?_, ?_, ?_⟩
            · dsimp only; rw [d1, List.append_assoc]
            · rw [List.filter_append, hfil, List.filter_cons_of_pos v]; rfl
            · dsimp only; omega
          · intro _
            dsimp only
            refine ⟨by omega, ?_⟩
            have : q1.pos + cs.length + 1 - 1 = (q1.queue ++ cs).length := by simp; omega
            rw [this, List.getElem?_append_right (Nat.le_refl _)]
            simp
        · rw [if_neg hr] at x
          cases x
          have hr : q1.restore = false := by simpa using hr
          refine ⟨p, Adv.refl w, v, ⟨[t], sup, ?_, ⟨⟨a9.1, a9.2⟩, a2, a3, a4, by dsimp only; omega, by dsimp only; rw [a6]; exact List.prefix_refl _, a8.trans (List.prefix_append _ _), fun _ => a6, fun _ => a6⟩, ?_, fun _ _ => rep _ a5 a6 a7⟩, ?_⟩
          · unfold pending at c1 ⊢
            dsimp only
            rw [c1, c2]
            rfl
          · intro h; rw [← a2, hr] at h; cases h
          · dsimp only; intro h; rw [hr] at h; cases h

theorem fwd_readToken [Lawful σ] : Fwd ρ (readToken : M σ Token) := gets_readToken.fwd

theorem Got.pushBack {t : Token} {p0 p q : P σ} {u : Unit} (g : Got ρ t p0 p)
    (x : pushBack t p = .ok u q) : Adv ρ p0 q := by
  obtain ⟨v, ⟨e, s, b, fr, d, rep⟩, r⟩ := g
  unfold CppParse.pushBack at x
  have w := fr.between
  split at x
  · rename_i hpos
    have hr : p.restore = true := by
      cases h : p.restore with
      | true => rfl
      | false => have := w.start h; omega
    obtain ⟨r1, r2⟩ := r hr
    rw [r2] at x
    dsimp only at x
    split at x
    · cases x
      have hd : p.queue.drop (p.pos - 1) = t :: p.queue.drop p.pos := by
        obtain ⟨hlt, hge⟩ := List.getElem?_eq_some_iff.mp r2
        rw [List.drop_eq_getElem_cons hlt, hge]
        congr 2
        omega
      refine ⟨e, [], s, ?_, ⟨⟨fun h => ?_, ?_⟩, fr.restore, fr.accept, fr.angles, fr.raw, fr.errs, fr.seen, fr.noErr, fr.quiet⟩, fun h => ?_, rep⟩
      · rw [b]
        simp only [pending]
        rw [hd, List.filter_cons_of_pos v]
        rfl
      · dsimp only at h; rw [hr] at h; cases h
      · have := w.bound
        dsimp only; omega
      · obtain ⟨y, hy, hy2, hy3⟩ := d h
        exact ⟨y, hy, hy2, by dsimp only; omega⟩
    · cases x
  · rename_i hpos
    have hz : p.pos = 0 := by omega
    have hr : p.restore = false := by
      cases h : p.restore with
      | false => rfl
      | true => have := (r h).1; omega
    cases x
    refine ⟨e, [], s, ?_, ⟨⟨fun h => hz, ?_⟩, fr.restore, fr.accept, fr.angles, fr.raw, fr.errs, fr.seen, fr.noErr, fr.quiet⟩, fun h => ?_, rep⟩
    · rw [b]
      simp only [pending, hz, List.drop_zero]
      rw [List.filter_cons_of_pos v]
      rfl
    · dsimp only; omega
    · rw [← fr.restore, hr] at h; cases h

theorem FwdT.pushBack {β : Type} {t : Token} {f : Unit → M σ β} (hf : Fwd ρ (f ())) :
    FwdT ρ t (pushBack t >>= f) := by
  intro p0 p b q w g x
  obtain ⟨u, p', x1, x2⟩ := bind_inv x
  have := g.pushBack x1
  exact this.trans (hf p' b q this.between x2)

theorem FwdT.pushBack' {t : Token} : FwdT (σ := σ) ρ t (CppParse.pushBack t) := by
  intro p0 p b q w g x
  exact g.pushBack x

theorem FwdT.ifPush {β : Type} {t : Token} {c : Prop} [Decidable c] {f : Unit → M σ β}
    (h : c → Fwd ρ (f ())) (h' : ¬c → FwdT ρ t (f ())) :
    FwdT ρ t ((if c then CppParse.pushBack t else Pure.pure ()) >>= f) := by
  by_cases hc : c
  · rw [if_pos hc]; exact FwdT.pushBack (h hc)
  · rw [if_neg hc]; exact FwdT.still (still_pure _) fun _ => h' hc

theorem fwd_peek [Lawful σ] : Fwd ρ (peek : M σ Token) :=
  Fwd.gets gets_readToken fun _ => FwdT.pushBack (Fwd.pure _)

theorem fwd_activity [Lawful σ] : Fwd ρ (activity : M σ (Nat × Int)) :=
  Fwd.bind still_getP.fwd fun _ => Fwd.bind fwd_peek fun _ => Fwd.pure _

theorem FwdT.okToStay {β : Type} {t : Token} {f : Bool → M σ β} (h : Fwd ρ (f false)) (h' : FwdT ρ t (f true)) :
    FwdT ρ t (okToStay t >>= f) := by
  intro p0 p b q w g x
  obtain ⟨a, p', x1, x2⟩ := bind_inv x
  unfold CppParse.okToStay at x1
  obtain ⟨a1, p1, y1, y2⟩ := bind_inv x1
  cases y1
  split at y2
  · obtain ⟨a2, p2, z1, z2⟩ := bind_inv y2
    cases z2
    have := g.pushBack z1
    exact this.trans (h _ b q this.between x2)
  · cases y2
    by_cases ht : t.type = .endOfFile
    · rw [show decide (t.type ≠ TT.endOfFile) = false from by simp [ht]] at x2
      exact g.adv.trans (h p b q g.adv.between x2)
    · rw [show decide (t.type ≠ TT.endOfFile) = true from by simp [ht]] at x2
      exact h' p0 p b q w g x2

/-! ## Scopes -/

theorem Adv.reframe {p q : P σ} {a : Accept} {b : Bool} (h : Adv ρ { p with accept := a, angles := b } q) :
    Adv ρ p { q with accept := p.accept, angles := p.angles } := by
  obtain ⟨e, w, s, t, fr, d, rep⟩ := h
  exact ⟨e, w, s, t, ⟨⟨fr.between.start, fr.between.bound⟩, fr.restore, rfl, rfl, fr.raw, fr.errs, fr.seen, fr.noErr, fr.quiet⟩, d, rep⟩

theorem Fwd.inScope {β : Type} {t : TT} {m : M σ β} (h : Fwd ρ m) : Fwd ρ (inScope t m) := by
  intro p b q w x
  unfold CppParse.inScope at x
  split at x
  · cases x
  · split at x
    · rename_i he
      cases x
      refine (h _ _ _ ?_ he).reframe
      exact ⟨w.start, w.bound⟩
    · cases x

theorem Fwd.withAngles {β : Type} {m : M σ β} (h : Fwd ρ m) : Fwd ρ (withAngles m) := by
  intro p b q w x
  unfold CppParse.withAngles at x
  split at x
  · rename_i he
    cases x
    have := h _ _ _ (by exact ⟨w.start, w.bound⟩) he
    obtain ⟨e, w', s, t, fr, d, rep⟩ := this
    exact ⟨e, w', s, t, ⟨⟨fr.between.start, fr.between.bound⟩, fr.restore, fr.accept, rfl, fr.raw, fr.errs, fr.seen, fr.noErr, fr.quiet⟩, d, rep⟩
  · cases x

theorem Fwd.acceptingCurly {β : Type} {m : M σ β} (h : Fwd ρ m) : Fwd ρ (acceptingCurly m) := by
  intro p b q w x
  unfold CppParse.acceptingCurly at x
  split at x
  · rename_i he
    cases x
    have := h _ _ _ (by exact ⟨w.start, w.bound⟩) he
    obtain ⟨e, w', s, t, fr, d, rep⟩ := this
    exact ⟨e, w', s, t, ⟨⟨fr.between.start, fr.between.bound⟩, fr.restore, rfl, fr.angles, fr.raw, fr.errs, fr.seen, fr.noErr, fr.quiet⟩, d, rep⟩
  · cases x

/-- `withAngles` around something that ends with reading a token. -/
theorem Gets.withAngles {β : Type} {m : M σ β} {g : β → Token} (h : Gets ρ m g) :
    Gets ρ (withAngles m) g := by
  intro p b q w x
  unfold CppParse.withAngles at x
  split at x
  · rename_i he
    cases x
    obtain ⟨p', a1, v, ⟨e', s', b', fr', d', rep'⟩, r⟩ := h _ _ _ (by exact ⟨w.start, w.bound⟩) he
    obtain ⟨e, w', s, t, fr, d, rep⟩ := a1
    refine ⟨{ p' with angles := p.angles }, ⟨e, w', s, t, ⟨⟨fr.between.start, fr.between.bound⟩, fr.restore, fr.accept, rfl, fr.raw, fr.errs, fr.seen, fr.noErr, fr.quiet⟩, d, rep⟩,
      v, ⟨e', s', b', ⟨⟨fr'.between.start, fr'.between.bound⟩, fr'.restore, fr'.accept, rfl, fr'.raw, fr'.errs, fr'.seen, fr'.noErr, fr'.quiet⟩, d', rep'⟩, r⟩
  · cases x

/-! ## The word `operator` -/

theorem FwdT.op {β : Type} {t : Token} {m : M σ β} (ht : t.text = operatorWord) (h : Fwd False m) :
    FwdT ρ t m := by
  intro p0 p b q w g x
  obtain ⟨v, ⟨e, s, bb, fr, d, rep⟩, r⟩ := g
  obtain ⟨e', w', s', b', fr', d', rep'⟩ := h p b q fr.between x
  have hm : Moves False (e ++ e') ([t] ++ w') p0 q :=
    Moves.trans ⟨s, bb, fr, d, fun x => x.elim⟩ ⟨s', b', fr', d', fun x => x.elim⟩
  obtain ⟨s2, b2, fr2, d2, -⟩ := hm
  refine ⟨_, _, s2, b2, fr2, d2, fun _ n => absurd ht (n t ?_)⟩
  rw [b2]
  simp

end Verif.CppParse

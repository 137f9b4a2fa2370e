import Verif.Persist.Spec
import Verif.Schema.Lemmas
/-!
# Saving and loading objects — lemmas
-/
namespace Verif.Persist
open Verif Schema Spec

/-! ## The parts of what is saved -/

/-- What is written for an object, before link indices are known: bytes, a place for a link index, or the
start of an object held by an `Owned` pointer. -/
inductive Piece where
  | bytes (bs : List Byte)
  | hole (a : Addr)
  | own (a : Addr)

def Piece.len : Piece → Nat
  | .bytes bs => bs.length
  | .hole _ => 4
  | .own _ => 0

def Piece.own? : Piece → Option Addr
  | .own a => some a
  | _ => none

def Piece.hole? : Piece → Option Addr
  | .hole a => some a
  | _ => none

def Piece.render (ρ : Addr → Nat) : Piece → List Byte
  | .bytes bs => bs
  | .hole a => le 4 (ρ a)
  | .own _ => []

def owns (ps : List Piece) : List Addr := ps.filterMap Piece.own?
def holes (ps : List Piece) : List Addr := ps.filterMap Piece.hole?
def render (ρ : Addr → Nat) (ps : List Piece) : List Byte := ps.flatMap (Piece.render ρ)

/-- At least one byte comes before any `own`. -/
def solid : List Piece → Bool
  | [] => false
  | p :: ps => match p with
    | .own _ => false
    | .hole _ => true
    | .bytes [] => solid ps
    | .bytes (_ :: _) => true

/-- At least one byte between an `own` of an address that is not in `S` and the next. -/
def tight (S : List Addr) : List Piece → Bool
  | [] => true
  | .own a :: ps => (S.contains a || solid ps) && tight S ps
  | .hole _ :: ps => tight S ps
  | .bytes _ :: ps => tight S ps

@[simp] theorem owns_append (a b : List Piece) : owns (a ++ b) = owns a ++ owns b := by simp [owns]
@[simp] theorem holes_append (a b : List Piece) : holes (a ++ b) = holes a ++ holes b := by simp [holes]
@[simp] theorem render_append (ρ : Addr → Nat) (a b : List Piece) :
    render ρ (a ++ b) = render ρ a ++ render ρ b := by simp [render]
@[simp] theorem owns_nil : owns [] = [] := rfl
@[simp] theorem holes_nil : holes [] = [] := rfl
@[simp] theorem render_nil (ρ : Addr → Nat) : render ρ [] = [] := rfl
@[simp] theorem owns_bytes (bs : List Byte) (ps : List Piece) : owns (.bytes bs :: ps) = owns ps := rfl
@[simp] theorem owns_hole (a : Addr) (ps : List Piece) : owns (.hole a :: ps) = owns ps := rfl
@[simp] theorem owns_own (a : Addr) (ps : List Piece) : owns (.own a :: ps) = a :: owns ps := rfl
@[simp] theorem holes_bytes (bs : List Byte) (ps : List Piece) : holes (.bytes bs :: ps) = holes ps := rfl
@[simp] theorem holes_hole (a : Addr) (ps : List Piece) : holes (.hole a :: ps) = a :: holes ps := rfl
@[simp] theorem holes_own (a : Addr) (ps : List Piece) : holes (.own a :: ps) = holes ps := rfl
@[simp] theorem render_bytes (ρ : Addr → Nat) (bs : List Byte) (ps : List Piece) :
    render ρ (.bytes bs :: ps) = bs ++ render ρ ps := by simp [render, Piece.render]
@[simp] theorem render_hole (ρ : Addr → Nat) (a : Addr) (ps : List Piece) :
    render ρ (.hole a :: ps) = le 4 (ρ a) ++ render ρ ps := by simp [render, Piece.render]
@[simp] theorem render_own (ρ : Addr → Nat) (a : Addr) (ps : List Piece) :
    render ρ (.own a :: ps) = render ρ ps := by simp [render, Piece.render]

theorem le_length : ∀ (k n : Nat), (le k n).length = k
  | 0, _ => rfl
  | k + 1, n => by rw [le, List.length_cons, le_length k]

theorem solid_append : ∀ (a b : List Piece), solid a = true → solid (a ++ b) = true
  | [], _, h => by cases h
  | p :: ps, b, h => by
    cases p with
    | own a => cases h
    | hole a => rfl
    | bytes bs =>
      cases bs with
      | nil => exact solid_append ps b h
      | cons x xs => rfl

theorem tight_append (S : List Addr) : ∀ (a b : List Piece), tight S a = true → tight S b = true →
    tight S (a ++ b) = true
  | [], _, _, h => h
  | p :: ps, b, h, hb => by
    cases p with
    | own a =>
      rw [tight, Bool.and_eq_true, Bool.or_eq_true] at h
      rw [List.cons_append, tight, Bool.and_eq_true, Bool.or_eq_true]
      exact ⟨h.1.imp id (solid_append ps b), tight_append S ps b h.2 hb⟩
    | hole a => exact tight_append S ps b h hb
    | bytes bs => exact tight_append S ps b h hb

/-! ## The writer's state -/

def WC.step (heap : Addr → T) (c : WC) : Piece → WC
  | .bytes bs => c.emit bs
  | .hole a => { c with weak := c.weak ++ [(a, heap a, c.out.length)] }.emit (le 4 0)
  | .own a => { c with saved := c.saved ++ [(a, heap a, c.out.length)] }

def WC.app (heap : Addr → T) (c : WC) (ps : List Piece) : WC := ps.foldl (WC.step heap) c

theorem WC.app_append (heap : Addr → T) (c : WC) (a b : List Piece) :
    c.app heap (a ++ b) = (c.app heap a).app heap b := List.foldl_append

@[simp] theorem WC.app_nil (heap : Addr → T) (c : WC) : c.app heap [] = c := rfl
@[simp] theorem WC.app_cons (heap : Addr → T) (c : WC) (p : Piece) (ps : List Piece) :
    c.app heap (p :: ps) = (c.step heap p).app heap ps := rfl

theorem WC.app_saved (heap : Addr → T) : ∀ (ps : List Piece) (c : WC),
    (c.app heap ps).saved.map (·.1) = c.saved.map (·.1) ++ owns ps
  | [], c => by simp
  | p :: ps, c => by
    rw [WC.app_cons, WC.app_saved heap ps]
    cases p <;> simp [WC.step, WC.emit]

/-! ## The reader's state -/

def RC.step (heap : Addr → T) (c : RC) : Piece → RC
  | .bytes bs => { c with input := c.input.drop bs.length, pos := c.pos + bs.length }
  | .hole _ => { c with input := c.input.drop 4, pos := c.pos + 4 }
  | .own a =>
    { c with
      done := (matchLinks c.pos c.next (heap a) c.done c.todo).1
      todo := (matchLinks c.pos c.next (heap a) c.done c.todo).2
      next := c.next + 1 }

def RC.app (heap : Addr → T) (c : RC) (ps : List Piece) : RC := ps.foldl (RC.step heap) c

theorem RC.app_append (heap : Addr → T) (c : RC) (a b : List Piece) :
    c.app heap (a ++ b) = (c.app heap a).app heap b := List.foldl_append

@[simp] theorem RC.app_nil (heap : Addr → T) (c : RC) : c.app heap [] = c := rfl
@[simp] theorem RC.app_cons (heap : Addr → T) (c : RC) (p : Piece) (ps : List Piece) :
    c.app heap (p :: ps) = (c.step heap p).app heap ps := rfl

theorem matchLinks_length (pos : Nat) (a : Addr) (t : T) : ∀ (todo : List Nat) (done : List (Option (Addr × T))),
    (matchLinks pos a t done todo).1.length + (matchLinks pos a t done todo).2.length =
      done.length + todo.length
  | [], done => by simp [matchLinks]
  | off :: rest, done => by
    rw [matchLinks]
    split
    · rfl
    · split
      · simp; omega
      · rw [matchLinks_length pos a t rest]; simp; omega

theorem RC.app_table (heap : Addr → T) : ∀ (ps : List Piece) (c : RC),
    (c.app heap ps).done.length + (c.app heap ps).todo.length = c.done.length + c.todo.length
  | [], c => rfl
  | p :: ps, c => by
    rw [RC.app_cons, RC.app_table heap ps]
    cases p with
    | own a => exact matchLinks_length ..
    | _ => rfl

theorem RC.app_next (heap : Addr → T) : ∀ (ps : List Piece) (c : RC),
    (c.app heap ps).next = c.next + (owns ps).length
  | [], c => rfl
  | p :: ps, c => by
    rw [RC.app_cons, RC.app_next heap ps]
    cases p with
    | own a => simp only [RC.step, owns_own, List.length_cons]; exact Nat.add_right_comm ..
    | _ => rfl

theorem RC.app_input (heap : Addr → T) (ρ : Addr → Nat) : ∀ (ps : List Piece) (c : RC) (rest : List Byte),
    c.input = render ρ ps ++ rest → (c.app heap ps).input = rest
  | [], c, rest, h => h
  | p :: ps, c, rest, h => by
    rw [RC.app_cons]
    refine RC.app_input heap ρ ps _ rest ?_
    cases p with
    | own a => rw [render_own] at h; exact h
    | bytes bs => simp [RC.step, h]
    | hole a =>
      simp only [RC.step, h, render_hole, List.append_assoc]
      exact List.drop_left' (le_length 4 _)

theorem readLe_bytes (heap : Addr → T) (c : RC) (k n : Nat) (rest : List Byte) (h : n < 2 ^ (8 * k))
    (hi : c.input = le k n ++ rest) : c.readLe k = some (n, c.step heap (.bytes (le k n))) := by
  unfold RC.readLe
  rw [hi, readLe_le k n rest (by rw [Nat.pow_mul] at h; exact h)]
  simp [RC.step, hi, le_length]

theorem readStr_bytes (heap : Addr → T) (c : RC) (s rest : List Byte) (h : s.length < 2 ^ 32)
    (hi : c.input = boxed s ++ rest) : c.readStr = some (s, c.step heap (.bytes (boxed s))) := by
  unfold RC.readStr
  rw [hi, readBoxed_boxed s rest h]
  have e : (boxed s).length = 4 + s.length := by simp [boxed, le_length]
  simp [RC.step, hi, e, List.drop_left' e]

/-! ## What comes back before links are resolved -/

mutual
def loaded (σ : Addr → Addr) (ρ : Addr → Nat) (heap : Addr → T) : Val → Val
  | .owned a v => .owned (σ a) (loaded σ ρ heap v)
  | .ptr a => .link (ρ a) (heap a)
  | .items vs => .items (loadedList σ ρ heap vs)
  | .struct vs => .struct (loadedList σ ρ heap vs)
  | .switch id v => .switch id (loaded σ ρ heap v)
  | v => v
def loadedList (σ : Addr → Addr) (ρ : Addr → Nat) (heap : Addr → T) : List Val → List Val
  | [] => []
  | v :: vs => loaded σ ρ heap v :: loadedList σ ρ heap vs
end

/-- The formats `A` gives for types are those of the types. -/
def Describes (env : Env) (slots : List (Option Desc)) (A : T → Ref → Prop) : Prop :=
  ∀ t r, A t r → (∃ k, env.kind t = .prim k true ∧ r = .builtin k) ∨
    ∃ d f, format slots r = some (.inr d) ∧ Spec.format f (env.kind t) = some d ∧
      ∀ c ∈ parts (env.kind t), A c (f c)

section
variable (env : Env) (heap : Addr → T)

/-- Writing does what the pieces say. -/
def Writes (ps : List Piece) (w : WC → Option WC) : Prop :=
  ∀ c : WC, (∀ a ∈ owns ps, a ∉ c.saved.map (·.1)) → (owns ps).Nodup → w c = some (c.app heap ps)

/-- Reading does what the pieces say, giving `v`. -/
def Reads {α : Type} (ps : List Piece) (v : (Addr → Addr) → (Addr → Nat) → α)
    (rd : RC → Option (α × RC)) : Prop :=
  ∀ (ρ : Addr → Nat) (σ : Addr → Addr) (c : RC) (rest : List Byte), c.input = render ρ ps ++ rest →
    (∀ a ∈ holes ps, ρ a < 2 ^ 32 ∧ ρ a < c.done.length + c.todo.length) →
    (owns ps).map σ = List.range' c.next (owns ps).length →
    rd c = some (v σ ρ, c.app heap ps)

/-- Skipping moves past the pieces, if none is a link. -/
def Skips (ps : List Piece) (sk : RC → Option RC) : Prop :=
  Persist.holes ps = [] → ∀ (ρ : Addr → Nat) (c : RC) (rest : List Byte), c.input = render ρ ps ++ rest →
    sk c = some { c with input := rest, pos := c.pos + (render ρ ps).length }

/-- One object. -/
structure OkAt (t : T) (v : Val) (ps : List Piece) (k : Nat) : Prop where
  owns : owns ps = owneds v
  holes : holes ps = ptrs v
  write : ∀ f, k ≤ f → Writes heap ps (write env f t v)
  read : ∀ slots A, Describes env slots A → ∀ f, k ≤ f → ∀ r, A t r → ∀ old, Formed env t old →
    Reads heap ps (fun σ ρ => loaded σ ρ heap v) (read env slots f t r old)
  solid : Solid env t → solid ps = true
  tight : ∀ S : List Addr, (∀ a ∈ owneds v, a ∉ S → Solid env (heap a)) → tight S ps = true
  skip : ∀ slots A, Describes env slots A → ∀ f, k ≤ f → ∀ r, A t r → Skips ps (Persist.skip slots f r)

/-- Several objects of the same type. -/
structure OkItems (item : T) (vs : List Val) (ps : List Piece) (k : Nat) : Prop where
  owns : owns ps = ownedsList vs
  holes : holes ps = ptrsList vs
  write : ∀ f, k ≤ f → Writes heap ps (writeItems (Persist.write env f item) vs)
  read : ∀ slots A, Describes env slots A → ∀ f, k ≤ f → ∀ r, A item r → ∀ olds : List Val, olds.length = vs.length →
    (∀ o ∈ olds, Formed env item o) →
    Reads heap ps (fun σ ρ => loadedList σ ρ heap vs) (readItems (Persist.read env slots f item r) olds)
  solid : vs ≠ [] → Solid env item → Persist.solid ps = true
  skip : ∀ slots A, Describes env slots A → ∀ f, k ≤ f → ∀ r, A item r →
    Skips ps (skipN (Persist.skip slots f r) vs.length)
  tight : ∀ S : List Addr, (∀ a ∈ ownedsList vs, a ∉ S → Solid env (heap a)) → Persist.tight S ps = true

/-- Read the members of a struct one after the other. -/
def readFields (child : T → Ref → Val → RC → Option (Val × RC)) (g : T → Ref) :
    List (List Byte × T) → List Val → RC → Option (List Val × RC)
  | [], [], c => some ([], c)
  | m :: ms, v :: vs, c =>
    match child m.2 (g m.2) v c with
    | none => none
    | some (v, c) =>
      match readFields child g ms vs c with
      | none => none
      | some (vs, c) => some (v :: vs, c)
  | _, _, _ => none

/-- Members. -/
structure OkFields (ms : List (List Byte × T)) (vs : List Val) (ps : List Piece) (k : Nat) : Prop where
  owns : owns ps = ownedsList vs
  holes : holes ps = ptrsList vs
  write : ∀ f, k ≤ f → Writes heap ps (writeFields (Persist.write env f) ms vs)
  read : ∀ slots A, Describes env slots A → ∀ f, k ≤ f → ∀ g : T → Ref, (∀ m ∈ ms, A m.2 (g m.2)) → ∀ olds : List Val,
    olds.length = ms.length →
    (∀ (i : Nat) (m : List Byte × T) (v : Val), ms[i]? = some m → olds[i]? = some v → Formed env m.2 v) →
    Reads heap ps (fun σ ρ => loadedList σ ρ heap vs) (readFields (Persist.read env slots f) g ms olds)
  solid : ∀ m ms', ms = m :: ms' → Solid env m.2 → Persist.solid ps = true
  skip : ∀ slots A, Describes env slots A → ∀ f, k ≤ f → ∀ g : T → Ref, (∀ m ∈ ms, A m.2 (g m.2)) →
    Skips ps (skipAll (Persist.skip slots f) (ms.map fun m => g m.2))
  tight : ∀ S : List Addr, (∀ a ∈ ownedsList vs, a ∉ S → Solid env (heap a)) → Persist.tight S ps = true

variable {env heap}

theorem Writes.nil : Writes heap [] some := fun c _ _ => rfl

theorem Writes.seq {p q : List Piece} {w1 w2 : WC → Option WC} (h1 : Writes heap p w1)
    (h2 : Writes heap q w2) :
    Writes heap (p ++ q) (fun c => match w1 c with
      | none => none
      | some c => w2 c) := by
  intro c hf hn
  rw [owns_append] at hf hn
  have hn' := List.nodup_append.mp hn
  have e1 := h1 c (fun a ha => hf a (List.mem_append_left _ ha)) hn'.1
  have e2 := h2 (c.app heap p) (fun a ha => by
    rw [WC.app_saved, List.mem_append]
    rintro (h | h)
    · exact hf a (List.mem_append_right _ ha) h
    · exact hn'.2.2 a h a ha rfl) hn'.2.1
  dsimp only
  rw [e1]
  dsimp only
  rw [e2, WC.app_append]

theorem Reads.split {p q : List Piece} {c : RC} {ρ : Addr → Nat} {σ : Addr → Addr} {rest : List Byte}
    (hi : c.input = render ρ (p ++ q) ++ rest)
    (hh : ∀ a ∈ Persist.holes (p ++ q), ρ a < 2 ^ 32 ∧ ρ a < c.done.length + c.todo.length)
    (ho : (Persist.owns (p ++ q)).map σ = List.range' c.next (Persist.owns (p ++ q)).length) :
    (c.input = render ρ p ++ (render ρ q ++ rest) ∧
      (∀ a ∈ Persist.holes p, ρ a < 2 ^ 32 ∧ ρ a < c.done.length + c.todo.length) ∧
      (Persist.owns p).map σ = List.range' c.next (Persist.owns p).length) ∧
    ((c.app heap p).input = render ρ q ++ rest ∧
      (∀ a ∈ Persist.holes q, ρ a < 2 ^ 32 ∧
        ρ a < (c.app heap p).done.length + (c.app heap p).todo.length) ∧
      (Persist.owns q).map σ = List.range' (c.app heap p).next (Persist.owns q).length) := by
  rw [render_append, List.append_assoc] at hi
  rw [holes_append] at hh
  rw [owns_append, List.map_append, List.length_append, ← List.range'_append] at ho
  obtain ⟨o1, o2⟩ := List.append_inj ho (by simp)
  refine ⟨⟨hi, fun a ha => hh a (List.mem_append_left _ ha), o1⟩, RC.app_input heap ρ p c _ hi,
    fun a ha => ?_, ?_⟩
  · rw [RC.app_table]; exact hh a (List.mem_append_right _ ha)
  · rw [RC.app_next, o2]; simp

theorem Skips.nil : Skips [] some := fun _ ρ c rest h => by
  rw [render_nil, List.nil_append] at h
  rw [← h]; rfl

theorem Skips.seq {p q : List Piece} {s1 s2 : RC → Option RC} (h1 : Skips p s1) (h2 : Skips q s2) :
    Skips (p ++ q) (fun c => match s1 c with
      | none => none
      | some c => s2 c) := by
  intro hh ρ c rest hi
  rw [holes_append, List.append_eq_nil_iff] at hh
  rw [render_append, List.append_assoc] at hi
  dsimp only
  rw [h1 hh.1 ρ c _ hi]
  dsimp only
  rw [h2 hh.2 ρ _ rest rfl, render_append, List.length_append]
  simp only [Nat.add_assoc]

theorem Skips.le (k n : Nat) (h : n < 2 ^ (8 * k)) : Skips [.bytes (le k n)] (fun c => (c.readLe k).map (·.2)) := by
  intro _ ρ c rest hi
  rw [render_bytes, render_nil, List.append_nil] at hi ⊢
  dsimp only
  unfold RC.readLe
  rw [hi, readLe_le k n rest (by rw [Nat.pow_mul] at h; exact h), le_length]
  rfl

theorem ok_items_cons {item : T} {v : Val} {vs : List Val} {p q : List Piece} {k1 k2 : Nat}
    (h1 : OkAt env heap item v p k1) (h2 : OkItems env heap item vs q k2) :
    OkItems env heap item (v :: vs) (p ++ q) (max k1 k2) := by
  refine ⟨?_, ?_, ?_, ?_, ?_, ?_, ?_⟩
  · rw [owns_append, h1.owns, h2.owns]; rfl
  · rw [holes_append, h1.holes, h2.holes]; rfl
  · intro f hf
    exact Writes.seq (h1.write f (by omega)) (h2.write f (by omega))
  · intro slots A hA f hf r hr olds hl hold ρ σ c rest hi hh ho
    cases olds with
    | nil => cases hl
    | cons o os =>
      obtain ⟨⟨a1, a2, a3⟩, b1, b2, b3⟩ := Reads.split (heap := heap) hi hh ho
      rw [readItems, h1.read slots A hA f (by omega) r hr o (hold o (by simp)) ρ σ c _ a1 a2 a3]
      dsimp only
      rw [h2.read slots A hA f (by omega) r hr os (by simpa using hl) (fun x hx => hold x (by simp [hx])) ρ σ _ _
        b1 b2 b3]
      dsimp only
      rw [RC.app_append, loadedList]
  · intro _ hs
    exact solid_append _ _ (h1.solid hs)
  · intro slots A hA f hf r hr
    exact Skips.seq (h1.skip slots A hA f (by omega) r hr) (h2.skip slots A hA f (by omega) r hr)
  · intro S hs
    rw [ownedsList] at hs
    exact tight_append S _ _ (h1.tight S fun a ha => hs a (List.mem_append_left _ ha))
      (h2.tight S fun a ha => hs a (List.mem_append_right _ ha))

theorem items_ok {item : T} : ∀ {vs : List Val}, (∀ v ∈ vs, ∃ ps k, OkAt env heap item v ps k) →
    ∃ ps k, OkItems env heap item vs ps k
  | [], _ => ⟨[], 0, {
      owns := rfl, holes := rfl
      write := fun f _ c _ _ => rfl
      read := fun _ _ _ f _ r _ olds hl _ => by
        rw [List.eq_nil_of_length_eq_zero hl]
        intro ρ σ c rest _ _ _
        rfl
      solid := fun h => absurd rfl h
      skip := fun _ _ _ _ _ _ _ => Skips.nil
      tight := fun _ _ => rfl }⟩
  | v :: vs, h => by
    obtain ⟨p, k1, h1⟩ := h v (by simp)
    obtain ⟨q, k2, h2⟩ := items_ok (vs := vs) fun v hv => h v (by simp [hv])
    exact ⟨p ++ q, max k1 k2, ok_items_cons h1 h2⟩

theorem ok_fields_cons {m : List Byte × T} {ms : List (List Byte × T)} {v : Val} {vs : List Val}
    {p q : List Piece} {k1 k2 : Nat} (h1 : OkAt env heap m.2 v p k1) (h2 : OkFields env heap ms vs q k2) :
    OkFields env heap (m :: ms) (v :: vs) (p ++ q) (max k1 k2) := by
  refine ⟨?_, ?_, ?_, ?_, ?_, ?_, ?_⟩
  · rw [owns_append, h1.owns, h2.owns]; rfl
  · rw [holes_append, h1.holes, h2.holes]; rfl
  · intro f hf
    exact Writes.seq (h1.write f (by omega)) (h2.write f (by omega))
  · intro slots A hA f hf g hg olds hl hold ρ σ c rest hi hh ho
    cases olds with
    | nil => cases hl
    | cons o os =>
      obtain ⟨⟨a1, a2, a3⟩, b1, b2, b3⟩ := Reads.split (heap := heap) hi hh ho
      rw [readFields, h1.read slots A hA f (by omega) _ (hg m (by simp)) o (hold 0 m o rfl rfl) ρ σ c _ a1 a2 a3]
      dsimp only
      rw [h2.read slots A hA f (by omega) g (fun m hm => hg m (by simp [hm])) os (by simpa using hl)
        (fun i m v hm hv => hold (i + 1) m v (by simpa using hm) (by simpa using hv)) ρ σ _ _ b1 b2 b3]
      dsimp only
      rw [RC.app_append, loadedList]
  · intro m' ms' e hs
    cases e
    exact solid_append _ _ (h1.solid hs)
  · intro slots A hA f hf g hg
    exact Skips.seq (h1.skip slots A hA f (by omega) _ (hg m (by simp)))
      (h2.skip slots A hA f (by omega) g fun m hm => hg m (by simp [hm]))
  · intro S hs
    rw [ownedsList] at hs
    exact tight_append S _ _ (h1.tight S fun a ha => hs a (List.mem_append_left _ ha))
      (h2.tight S fun a ha => hs a (List.mem_append_right _ ha))

theorem fields_ok : ∀ {ms : List (List Byte × T)} {vs : List Val}, vs.length = ms.length →
    (∀ (i : Nat) (m : List Byte × T) (v : Val), ms[i]? = some m → vs[i]? = some v →
      ∃ ps k, OkAt env heap m.2 v ps k) →
    ∃ ps k, OkFields env heap ms vs ps k
  | [], [], _, _ => ⟨[], 0, {
      owns := rfl, holes := rfl
      write := fun f _ c _ _ => rfl
      read := fun _ _ _ f _ g _ olds hl _ => by
        rw [List.eq_nil_of_length_eq_zero hl]
        intro ρ σ c rest _ _ _
        rfl
      solid := fun _ _ h => by cases h
      skip := fun _ _ _ _ _ _ _ => Skips.nil
      tight := fun _ _ => rfl }⟩
  | [], _ :: _, h, _ => by cases h
  | _ :: _, [], h, _ => by cases h
  | m :: ms, v :: vs, hlen, h => by
    obtain ⟨p, k1, h1⟩ := h 0 m v rfl rfl
    obtain ⟨q, k2, h2⟩ := fields_ok (ms := ms) (vs := vs) (by simpa using hlen)
      fun i m v hm hv => h (i + 1) m v (by simpa using hm) (by simpa using hv)
    exact ⟨p ++ q, max k1 k2, ok_fields_cons h1 h2⟩

end

/-! ## By name is one after the other -/

theorem findName_at {names : List (List Byte)} (hn : names.Nodup) {i : Nat} {n : List Byte}
    (h : names[i]? = some n) : findName names n = some i := by
  have hi : i < names.length := by
    refine Classical.byContradiction fun hh => ?_
    rw [List.getElem?_eq_none (by omega)] at h; cases h
  rw [List.getElem?_eq_getElem hi, Option.some.injEq] at h
  unfold findName
  rw [if_pos (h ▸ List.getElem_mem hi), ← h, List.Nodup.idxOf_getElem hn]

theorem readNamed_items (child : Ref → Val → RC → Option (Val × RC)) (skip : Ref → RC → Option RC)
    (find : List Byte → Option Nat) (fr : Ref) : ∀ (names : List (List Byte)) (pre olds : List Val) (c : RC),
    (∀ (j : Nat) (n : List Byte), names[j]? = some n → find n = some (pre.length + j)) →
    names.length = olds.length →
    readNamed (fun _ fr v c => child fr v c) skip find (names.map fun n => (n, fr)) (pre ++ olds) c =
      (readItems (child fr) olds c).map fun p => (pre ++ p.1, p.2)
  | [], pre, [], c, _, _ => by simp [readNamed, readItems]
  | [], _, _ :: _, _, _, h => by cases h
  | _ :: _, _, [], _, _, h => by cases h
  | n :: names, pre, o :: olds, c, hf, hl => by
    rw [List.map_cons, readNamed]
    dsimp only
    rw [hf 0 n rfl, Nat.add_zero]
    dsimp only
    rw [List.getElem?_append_right (Nat.le_refl _), Nat.sub_self, List.getElem?_cons_zero, readItems]
    dsimp only
    cases hc : child fr o c with
    | none => rfl
    | some p =>
      obtain ⟨v, c'⟩ := p
      dsimp only
      have ih := readNamed_items child skip find fr names (pre ++ [v]) olds c'
        (fun j n hj => by rw [hf (j + 1) n (by simpa using hj)]; simp; omega) (by simpa using hl)
      rw [List.set_append_right _ _ (Nat.le_refl _), Nat.sub_self, List.set_cons_zero]
      rw [List.append_assoc, List.singleton_append] at ih
      rw [ih]
      cases readItems (child fr) olds c' with
      | none => rfl
      | some q => simp

theorem readNamed_fields (child : T → Ref → Val → RC → Option (Val × RC)) (skip : Ref → RC → Option RC)
    (g : T → Ref) (all : List (List Byte × T)) (hn : (all.map (·.1)).Nodup) :
    ∀ (ms pre : List (List Byte × T)) (vpre olds : List Val) (c : RC), all = pre ++ ms →
    vpre.length = pre.length → olds.length = ms.length →
    readNamed (readMember child all) skip (findName (all.map (·.1))) (ms.map fun m => (m.1, g m.2)) (vpre ++ olds) c =
      (readFields child g ms olds c).map fun p => (vpre ++ p.1, p.2)
  | [], _, vpre, [], c, _, _, _ => by simp [readNamed, readFields]
  | [], _, _, _ :: _, _, _, _, h => by cases h
  | _ :: _, _, _, [], _, _, _, h => by cases h
  | m :: ms, pre, vpre, o :: olds, c, he, hv, hl => by
    have hat : all[vpre.length]? = some m := by
      rw [he, hv, List.getElem?_append_right (Nat.le_refl _), Nat.sub_self]; rfl
    rw [List.map_cons, readNamed]
    dsimp only
    rw [findName_at hn (i := vpre.length) (by rw [List.getElem?_map, hat]; rfl)]
    dsimp only
    rw [List.getElem?_append_right (Nat.le_refl _), Nat.sub_self, List.getElem?_cons_zero, readFields]
    dsimp only
    have hrm : readMember child all vpre.length (g m.2) o c = child m.2 (g m.2) o c := by
      unfold readMember; rw [hat]
    rw [hrm]
    cases hc : child m.2 (g m.2) o c with
    | none => rfl
    | some p =>
      obtain ⟨v, c'⟩ := p
      dsimp only
      have ih := readNamed_fields child skip g all hn ms (pre ++ [m]) (vpre ++ [v]) olds c'
        (by simp [he]) (by simp [hv]) (by simpa using hl)
      rw [List.set_append_right _ _ (Nat.le_refl _), Nat.sub_self, List.set_cons_zero]
      rw [List.append_assoc, List.singleton_append] at ih
      rw [ih]
      cases readFields child g ms olds c' with
      | none => rfl
      | some q => simp

/-! ## Numbers -/

theorem width_pos {key w : Nat} (h : width key = some w) : 0 < w := by
  unfold width at h
  split at h <;> cases h <;> decide

theorem castNum_same {env : Env} (hs : ∀ key n, key = 11 ∨ key = 12 → env.fcast key key n = n) {key w n : Nat}
    (h : width key = some w) (hn : n < 2 ^ (8 * w)) (hb : key = 2 → n ≤ 1) : castNum env key key n = n := by
  unfold castNum
  by_cases h1 : key = 11 ∨ key = 12
  · rw [if_pos (by omega)]; exact hs key n h1
  rw [if_neg (by omega)]
  by_cases h2 : key = 2
  · subst h2
    have hv : value 2 n = n := by simp [value, width, isSigned]
    have := hb rfl
    have h01 : n = 0 ∨ n = 1 := by omega
    rw [if_pos rfl, hv]
    rcases h01 with rfl | rfl <;> decide
  · rw [if_neg h2, h]
    dsimp only
    unfold value
    rw [h]
    dsimp only
    have hpos : (0 : Int) < 2 ^ (8 * w) := Int.pow_pos (by decide)
    have hcast : ((2 ^ (8 * w) : Nat) : Int) = 2 ^ (8 * w) := by simp
    have hlt : (n : Int) < 2 ^ (8 * w) := by rw [← hcast]; exact_mod_cast hn
    split
    · unfold signed
      split
      · rw [Int.emod_eq_of_lt (by omega) hlt]; simp
      · rw [Int.sub_emod, Int.emod_self, Int.sub_zero, Int.emod_emod, Int.emod_eq_of_lt (by omega) hlt]; simp
    · rw [Int.emod_eq_of_lt (by omega) hlt]; simp

end Verif.Persist

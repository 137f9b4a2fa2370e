import Verif.Cpp.LemmasLex
/-!
# The tokenizer for C++ — reading tokens
-/
namespace Verif.Cpp
open Verif

/-! ## The number of passes -/

theorem size_cons (pp : PP) (f : Frame) (below : List Frame) (h : pp.stack = f :: below) :
    pp.size = f.rest.length + 1 + (below.map fun f => f.rest.length + 1).sum := by
  simp [PP.size, h]

theorem popFrame_size {pp : PP} {f : Frame} {below : List Frame} (h : pp.stack = f :: below)
    (hr : f.rest = []) : (popFrame pp below).size < pp.size := by
  rw [size_cons pp f below h, hr]
  cases below with
  | nil => simp [popFrame, PP.size]
  | cons g gs => simp [popFrame, PP.size]

theorem step_again_size {pp pp' : PP} {loc loc' : Int} (h : step pp loc = some (.again pp' loc')) :
    pp'.size < pp.size := by
  unfold step at h
  cases hs : pp.stack with
  | nil => rw [hs] at h; cases h
  | cons f below =>
    rw [hs] at h
    dsimp only at h
    by_cases hr : f.rest = []
    · rw [if_pos hr] at h
      cases h
      exact popFrame_size hs hr
    rw [if_neg hr] at h
    by_cases he : pp.endLoc < 0
    · rw [if_pos he] at h; cases h
    rw [if_neg he] at h
    cases hl : lex pp.angles pp.endLoc pp.atStart f.rest with
    | none => rw [hl] at h; cases h
    | some L =>
      rw [hl] at h
      obtain ⟨l1, l2, _⟩ := lex_spec hl
      cases L with
      | tok => cases h
      | ident => cases h
      | skip r errs st =>
        cases h
        rw [size_cons pp f below hs]
        simp only [PP.size, List.map_cons, List.sum_cons]
        simp only [Lex.rest] at l2
        omega

theorem readLoop_enough : ∀ (n m : Nat) (pp : PP) (loc : Int), pp.size < n → pp.size < m →
    readLoop n pp loc = readLoop m pp loc := by
  intro n
  induction n with
  | zero => intro m pp loc h; omega
  | succ n ih =>
    intro m pp loc hn hm
    cases m with
    | zero => omega
    | succ m =>
      unfold readLoop
      cases hs : step pp loc with
      | none => rfl
      | some S =>
        cases S with
        | got t q => rfl
        | ended => rfl
        | again pp' loc' =>
          have := step_again_size hs
          exact ih m pp' loc' (by omega) (by omega)

/-! ## Gaps -/

theorem Gap.mono {e1 e2 : List Err} (h : ∀ x ∈ e1, x ∈ e2) : ∀ {p : Int} {g : List Byte},
    Gap e1 p g → Gap e2 p g := by
  intro p g hg
  induction hg with
  | nil => exact Gap.nil
  | blank hb _ ih => exact Gap.blank hb ih
  | reported hx h1 h2 _ ih => exact Gap.reported (h _ hx) h1 h2 ih

theorem Covers.mono {e1 e2 : List Err} (h : ∀ x ∈ e1, x ∈ e2) : ∀ {p : Int} {g : List Byte}
    {ts : List Token}, Covers e1 p g ts → Covers e2 p g ts := by
  intro p g ts hg
  induction hg with
  | nil hg => exact Covers.nil (hg.mono h)
  | cons hg h1 h2 _ ih => exact Covers.cons (hg.mono h) h1 h2 ih

/-- What one call of `readToken` does without macros. -/
structure ReadOk (pp : PP) (f : Frame) (t : Token) (q : PP) : Prop where
  mac : q.macros = []
  endLoc : q.endLoc = pp.endLoc
  errs : ∀ x ∈ pp.errors, x ∈ q.errors
  ended : t.type = .endOfFile → q.stack = [] ∧ Gap q.errors (locAt pp.endLoc f.rest) f.rest
  got : t.type ≠ .endOfFile → ∃ gap rest, q.stack = [{ f with rest := rest }] ∧
    f.rest = gap ++ t.text ++ rest ∧ t.text ≠ [] ∧
    t.loc = locAt pp.endLoc f.rest + gap.length ∧ Gap q.errors (locAt pp.endLoc f.rest) gap

theorem readLoop_plain : ∀ (n : Nat) (pp : PP) (loc : Int) (f : Frame) (t : Token) (q : PP),
    pp.macros = [] → pp.stack = [f] → readLoop n pp loc = some (t, q) → ReadOk pp f t q := by
  intro n
  induction n with
  | zero => intro pp loc f t q _ _ h; cases h
  | succ n ih =>
    intro pp loc f t q hm hs h
    unfold readLoop at h
    cases hst : step pp loc with
    | none => rw [hst] at h; cases h
    | some S =>
      rw [hst] at h
      unfold step at hst
      rw [hs] at hst
      dsimp only at hst
      by_cases hr : f.rest = []
      · rw [if_pos hr] at hst
        cases hst
        dsimp only at h
        cases n with
        | zero => cases h
        | succ n =>
          unfold readLoop at h
          simp only [popFrame, step] at h
          cases h
          refine ⟨hm, rfl, fun x hx => hx, fun _ => ⟨rfl, ?_⟩, fun h => absurd rfl h⟩
          rw [hr]; exact Gap.nil
      rw [if_neg hr] at hst
      by_cases he : pp.endLoc < 0
      · rw [if_pos he] at hst; cases hst
      rw [if_neg he] at hst
      cases hl : lex pp.angles pp.endLoc pp.atStart f.rest with
      | none => rw [hl] at hst; cases hst
      | some L =>
        rw [hl] at hst
        obtain ⟨l1, l2, l3, l4, l5⟩ := lex_spec hl
        have hne : ∀ {r : List Byte}, r.length < f.rest.length → upTo f.rest r ≠ [] := by
          intro r hlt h0
          have := congrArg List.length h0
          simp only [upTo, List.length_take, List.length_nil] at this
          omega
        cases L with
        | skip r errs st =>
          cases hst
          dsimp only at h
          have hR := ih _ _ { f with rest := r } t q (by exact hm) rfl h
          obtain ⟨r1, r2, r3, r4, r5⟩ := hR
          dsimp only at r2 r3 r4 r5
          simp only [Lex.rest, Lex.errs] at l1 l2 l3
          have hsplit := upTo_append l1
          have hloc : locAt pp.endLoc r = locAt pp.endLoc f.rest + (upTo f.rest r).length := by
            rw [upTo_length l1]; unfold locAt; omega
          have hgap : ∀ {g : List Byte}, Gap q.errors (locAt pp.endLoc r) g →
              Gap q.errors (locAt pp.endLoc f.rest) (upTo f.rest r ++ g) := by
            intro g hg
            rw [hloc] at hg
            cases hE : errs with
            | nil => exact Gap.blank (l4 r errs st rfl hE) hg
            | cons x xs =>
              have hx : x ∈ errs := by rw [hE]; exact List.mem_cons_self
              have := l3 x hx
              exact Gap.reported (x := x) (r3 x (List.mem_append.mpr (Or.inr hx))) this.1
                (by rw [← hloc]; exact this.2) hg
          refine ⟨r1, r2, fun x hx => r3 x (List.mem_append.mpr (Or.inl hx)), ?_, ?_⟩
          · intro ht
            obtain ⟨a, b⟩ := r4 ht
            refine ⟨a, ?_⟩
            have := hgap b
            rwa [hsplit] at this
          · intro ht
            obtain ⟨gap, rest, a, b, c, d, g⟩ := r5 ht
            refine ⟨upTo f.rest r ++ gap, rest, a, ?_, c, ?_, hgap g⟩
            · rw [List.append_assoc, List.append_assoc, ← List.append_assoc gap, ← b, hsplit]
            · rw [d, hloc, List.length_append]; omega
        | tok ty r errs st incl =>
          cases hst
          cases h
          simp only [Lex.rest] at l1 l2
          have := l5 _ _ _ _ _ rfl
          refine ⟨hm, rfl, fun x hx => List.mem_append.mpr (Or.inl hx), fun h => absurd h this.2.1, fun _ => ?_⟩
          refine ⟨[], r, rfl, (upTo_append l1).symm, hne l2, ?_, Gap.nil⟩
          simp
        | ident r errs =>
          cases hst
          simp only [gotIdent, hm, findMacro] at h
          cases h
          simp only [Lex.rest] at l1 l2
          refine ⟨rfl, rfl, fun x hx => List.mem_append.mpr (Or.inl hx), (fun h => by cases h), fun _ => ?_⟩
          refine ⟨[], r, rfl, (upTo_append l1).symm, hne l2, ?_, Gap.nil⟩
          simp

theorem readAll_plain : ∀ (n : Nat) (pp : PP) (f : Frame) (ts : List Token) (q : PP),
    pp.macros = [] → pp.stack = [f] → readAll n pp = some (ts, q) →
    (∀ x ∈ pp.errors, x ∈ q.errors) ∧ Covers q.errors (locAt pp.endLoc f.rest) f.rest ts := by
  intro n
  induction n with
  | zero => intro pp f ts q _ _ h; cases h
  | succ n ih =>
    intro pp f ts q hm hs h
    unfold readAll at h
    cases ht : readToken pp with
    | none => rw [ht] at h; cases h
    | some p =>
      obtain ⟨t, pp'⟩ := p
      rw [ht] at h
      dsimp only at h
      have hR := readLoop_plain _ _ _ f _ _ hm hs ht
      by_cases hE : t.type = .endOfFile
      · rw [if_pos hE] at h
        cases h
        exact ⟨hR.errs, Covers.nil (hR.ended hE).2⟩
      rw [if_neg hE] at h
      cases ha : readAll n pp' with
      | none => rw [ha] at h; cases h
      | some p =>
        obtain ⟨ts', q'⟩ := p
        rw [ha] at h
        cases h
        obtain ⟨gap, rest, h1, h2, h3, h4, h5⟩ := hR.got hE
        obtain ⟨e1, c1⟩ := ih _ _ _ _ hR.mac h1 ha
        refine ⟨fun x hx => e1 x (hR.errs x hx), ?_⟩
        have hc : locAt pp'.endLoc rest = locAt pp.endLoc f.rest + gap.length + t.text.length := by
          rw [hR.endLoc, h2]; simp only [locAt, List.length_append]; omega
        dsimp only at c1
        rw [hc] at c1
        rw [h2]
        rw [h2] at h4 h5 c1
        exact Covers.cons (h5.mono e1) h3 h4 c1

/-! ## The location map -/

theorem lookup_fold_keep (p : Int) : ∀ (new : List LocItem) (b : Option LocItem),
    (∀ it ∈ new, p < it.loc) → new.foldl (better p) b = b := by
  intro new
  induction new with
  | nil => intro b _; rfl
  | cons x xs ih =>
    intro b h
    have hx := h x List.mem_cons_self
    rw [List.foldl_cons]
    have : better p b x = b := by
      cases b with
      | none => exact if_neg (by omega)
      | some b => exact if_neg (by omega)
    rw [this]
    exact ih b fun it hit => h it (List.mem_cons_of_mem _ hit)

theorem lookup_append {m new : List LocItem} {p : Int} (h : ∀ it ∈ new, p < it.loc) :
    lookup (m ++ new) p = lookup m p := by
  unfold lookup
  rw [List.foldl_append, lookup_fold_keep p new _ h]

theorem lookup_fold_le (p q : Int) : ∀ (l : List LocItem) (b : Option LocItem),
    (∀ it ∈ l, it.loc ≤ q) → (∀ c, b = some c → c.loc ≤ q) →
    ∀ c, l.foldl (better p) b = some c → c.loc ≤ q := by
  intro l
  induction l with
  | nil => intro b _ hb c hc; exact hb c hc
  | cons y ys ih =>
    intro b hl hb c hc
    rw [List.foldl_cons] at hc
    refine ih _ (fun it hit => hl it (List.mem_cons_of_mem _ hit)) ?_ c hc
    intro d hd
    have hy := hl y List.mem_cons_self
    unfold better at hd
    cases b with
    | none =>
      dsimp only at hd
      split at hd
      · cases hd; exact hy
      · cases hd
    | some b =>
      dsimp only at hd
      split at hd
      · cases hd; exact hy
      · cases hd; exact hb _ rfl

theorem lookup_last {m : List LocItem} {x : LocItem} {p : Int}
    (hs : (m ++ [x]).Pairwise (fun a b => a.loc ≤ b.loc)) (hx : x.loc ≤ p) :
    lookup (m ++ [x]) p = some x := by
  unfold lookup
  rw [List.foldl_append, List.foldl_cons, List.foldl_nil]
  have hall : ∀ it ∈ m, it.loc ≤ x.loc := fun it hit =>
    (List.pairwise_append.mp hs).2.2 it hit x List.mem_cons_self
  cases hb : m.foldl (better p) none with
  | none => exact if_pos hx
  | some b =>
    exact if_pos ⟨hx, lookup_fold_le p x.loc m none hall (fun c hc => by cases hc) b hb⟩

end Verif.Cpp

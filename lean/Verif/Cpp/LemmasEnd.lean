import Verif.Cpp.LemmasLoc
/-!
# The tokenizer for C++ — reading comes to an end
-/
namespace Verif.Cpp
open Verif

/-! ## No assertion fails without raw strings -/

theorem identLoop_some (e loc : Int) (b : Byte) : ∀ (fuel n : Nat) (errs : List Err) (s : List Byte),
    s.length < fuel → 1 ≤ n → (n = 1 → b = 82 → s.head? ≠ some 34) →
    ∃ x, identLoop e loc b fuel n errs s = some x := by
  intro fuel
  induction fuel with
  | zero => intro n errs s h; omega
  | succ fuel ih =>
    intro n errs s hl hn hr
    cases s with
    | nil => exact ⟨_, by unfold identLoop; rw [if_neg (by omega)]⟩
    | cons c cs =>
      simp only [List.length_cons] at hl
      unfold identLoop
      by_cases h1 : Esc.identByte true false false c = true
      · rw [if_pos h1]
        exact ih _ _ _ (by omega) (by omega) (fun h => by omega)
      rw [if_neg h1]
      by_cases h2 : c = 34
      · rw [if_pos h2]
        by_cases h3 : n = 1 ∧ b = 82
        · exact absurd (by rw [h2]; rfl) (hr h3.1 h3.2)
        rw [if_neg h3]
        cases readString c cs <;> exact ⟨_, rfl⟩
      rw [if_neg h2]
      split <;> exact ⟨_, rfl⟩

theorem lex_some {angles : Bool} {e : Int} {start : Bool} {s : List Byte} (hs : s ≠ []) (h : NoRaw s) :
    ∃ L, lex angles e start s = some L := by
  cases s with
  | nil => exact absurd rfl hs
  | cons c cs =>
    unfold lex
    dsimp only
    by_cases h1 : c = 10 ∨ c = 13 ∨ c = 9 ∨ c = 32
    · rw [if_pos h1]; exact ⟨_, rfl⟩
    rw [if_neg h1]
    by_cases h2 : c = 35
    · rw [if_pos h2]; split <;> exact ⟨_, rfl⟩
    rw [if_neg h2]
    by_cases h3 : c = 47
    · rw [if_pos h3]
      cases cs with
      | nil => exact ⟨_, rfl⟩
      | cons d ds =>
        dsimp only
        split
        · exact ⟨_, rfl⟩
        · split
          · cases Esc.scanLoop [42, 47] 0 ds <;> exact ⟨_, rfl⟩
          · split <;> exact ⟨_, rfl⟩
    rw [if_neg h3]
    cases punct angles c cs with
    | some q => exact ⟨_, rfl⟩
    | none =>
      dsimp only
      by_cases h4 : c = 39 ∨ c = 34
      · rw [if_pos h4]; cases readString c cs <;> exact ⟨_, rfl⟩
      rw [if_neg h4]
      unfold readIdentifierOrLiteral
      dsimp only
      by_cases h5 : 48 ≤ c ∧ c ≤ 57
      · rw [if_pos h5]; exact ⟨_, rfl⟩
      rw [if_neg h5]
      have : ∃ x, identLoop e (locAt e (c :: cs)) c ((c :: cs).length + 1) 0 [] (c :: cs) = some x := by
        unfold identLoop
        by_cases h6 : Esc.identByte true false false c = true
        · rw [if_pos h6]
          refine identLoop_some _ _ _ _ _ _ _ (by simp) (by omega) ?_
          intro _ hb hh
          cases cs with
          | nil => cases hh
          | cons d ds =>
            cases hh
            subst hb
            exact h ⟨[], ds, rfl⟩
        rw [if_neg h6]
        by_cases h7 : c = 34
        · exact absurd (Or.inr h7) h4
        rw [if_neg h7, if_pos rfl]
        exact ⟨_, rfl⟩
      obtain ⟨⟨t, r, errs⟩, hx⟩ := this
      rw [hx]
      dsimp only
      split
      · exact ⟨_, rfl⟩
      · split <;> exact ⟨_, rfl⟩

/-! ## What is left to read gets less -/

/-- `n` bounds what is left to read: the bytes of each stack item counted `K ^ k` times, where the macros
in it have a rank below `k`. -/
inductive Pot (macros : List Macro) (rank : Macro → Nat) (K : Nat) : List Frame → Nat → Prop where
  | nil : Pot macros rank K [] 0
  | cons {f : Frame} {below : List Frame} {k n : Nat} : f.rest <:+ f.contents → NoRaw f.contents →
      (∀ m ∈ macros, m.name <:+: f.contents → rank m < k) → Pot macros rank K below n →
      Pot macros rank K (f :: below) ((f.rest.length + 1) * K ^ k + n)

theorem NoRaw.suffix {r s : List Byte} (h : NoRaw s) (hr : r <:+ s) : NoRaw r :=
  fun hx => h (hx.trans hr.isInfix)

section
variable {macros : List Macro} {rank : Macro → Nat} {K : Nat}

theorem Pot.advance {f : Frame} {below : List Frame} {n : Nat} {r : List Byte} (hK : 2 ≤ K)
    (h : Pot macros rank K (f :: below) n) (hr : r <:+ f.rest) (hl : r.length < f.rest.length) :
    ∃ n', n' < n ∧ Pot macros rank K ({ f with rest := r } :: below) n' := by
  cases h with
  | @cons _ _ k n0 h1 h2 h3 h4 =>
    refine ⟨_, ?_, Pot.cons (f := { f with rest := r }) (hr.trans h1) h2 h3 h4⟩
    have hp : 0 < K ^ k := Nat.pow_pos (by omega)
    have : (r.length + 1) * K ^ k < (f.rest.length + 1) * K ^ k :=
      Nat.mul_lt_mul_of_pos_right (by omega) hp
    dsimp only
    omega

theorem Pot.enter {f : Frame} {below : List Frame} {n : Nat} {r r' : List Byte} {m : Macro} (c : Nat)
    (hK : 2 ≤ K) (hm : m ∈ macros) (hexp : m.expansion.length + 1 < K)
    (hrank : ∀ m' ∈ macros, m'.name <:+: m.expansion → rank m' < rank m)
    (hraw : NoRaw m.expansion)
    (h : Pot macros rank K (f :: below) n) (hr : r <:+ f.rest) (hl : r.length < f.rest.length)
    (hname : m.name = upTo f.rest r) (hr' : r' <:+ r) :
    ∃ n', n' < n ∧
      Pot macros rank K (⟨c, m.expansion, m.expansion⟩ :: { f with rest := r' } :: below) n' := by
  cases h with
  | @cons _ _ k n0 h1 h2 h3 h4 =>
    have hin : m.name <:+: f.contents := by
      rw [hname]
      refine List.IsInfix.trans ?_ h1.isInfix
      exact (List.take_prefix _ _).isInfix
    have hk := h3 m hm hin
    refine ⟨_, ?_, Pot.cons (f := ⟨c, m.expansion, m.expansion⟩) (k := rank m) List.suffix_rfl hraw hrank
      (Pot.cons (f := { f with rest := r' }) ((hr'.trans hr).trans h1) h2 h3 h4)⟩
    have hp : 0 < K ^ rank m := Nat.pow_pos (by omega)
    have hpk : K * K ^ rank m ≤ K ^ k := by
      rw [Nat.mul_comm, ← Nat.pow_succ]
      exact Nat.pow_le_pow_right (by omega) hk
    have h5 : (m.expansion.length + 1) * K ^ rank m < K * K ^ rank m :=
      Nat.mul_lt_mul_of_pos_right hexp hp
    have := hr'.length_le
    have h6 : (r'.length + 1 + 1) * K ^ k ≤ (f.rest.length + 1) * K ^ k :=
      Nat.mul_le_mul_right _ (by omega)
    have h7 : (r'.length + 1 + 1) * K ^ k = (r'.length + 1) * K ^ k + K ^ k := by
      rw [Nat.add_mul, Nat.one_mul]
    dsimp only
    omega

/-- Every step of reading leaves less to read. -/
theorem step_pot {pp : PP} {loc : Int} {n : Nat} (hK : 2 ≤ K)
    (hexp : ∀ m ∈ macros, m.expansion.length + 1 < K)
    (hrank : ∀ m ∈ macros, ∀ m' ∈ macros, m'.name <:+: m.expansion → rank m' < rank m)
    (hraw : ∀ m ∈ macros, NoRaw m.expansion) (hm : pp.macros = macros) (he : 0 ≤ pp.endLoc)
    (h : Pot macros rank K pp.stack n) :
    step pp loc = some .ended ∨
    (∃ q loc' n', step pp loc = some (.again q loc') ∧ n' < n ∧ Pot macros rank K q.stack n') ∨
    (∃ t q n', step pp loc = some (.got t q) ∧ n' < n ∧ Pot macros rank K q.stack n') := by
  unfold step
  cases hs : pp.stack with
  | nil => exact Or.inl rfl
  | cons f below =>
    rw [hs] at h
    have h0 := h
    dsimp only
    cases h with
    | @cons _ _ k n0 h1 h2 h3 h4 =>
    by_cases hr : f.rest = []
    · rw [if_pos hr]
      refine Or.inr (Or.inl ⟨_, _, n0, rfl, ?_, ?_⟩)
      · have hp : 0 < K ^ k := Nat.pow_pos (by omega)
        rw [hr]; simp; omega
      · cases below with
        | nil => exact h4
        | cons g gs => exact h4
    rw [if_neg hr, if_neg (by omega)]
    obtain ⟨L, hL⟩ := lex_some (angles := pp.angles) (e := pp.endLoc) (start := pp.atStart) hr (h2.suffix h1)
    rw [hL]
    obtain ⟨l1, l2, _⟩ := lex_spec hL
    cases L with
    | skip r errs st =>
      obtain ⟨n', a, b⟩ := Pot.advance hK h0 l1 l2
      exact Or.inr (Or.inl ⟨_, _, n', rfl, a, b⟩)
    | tok ty r errs st incl =>
      obtain ⟨n', a, b⟩ := Pot.advance hK h0 l1 l2
      exact Or.inr (Or.inr ⟨_, _, n', rfl, a, b⟩)
    | ident r errs =>
      simp only [Lex.rest] at l1 l2
      dsimp only
      unfold gotIdent
      dsimp only
      rw [show f.rest.take (f.rest.length - r.length) = upTo f.rest r from rfl]
      cases hf : findMacro pp.macros (upTo f.rest r) with
      | none =>
        obtain ⟨n', a, b⟩ := Pot.advance hK h0 l1 l2
        exact Or.inr (Or.inr ⟨_, _, n', rfl, a, b⟩)
      | some mi =>
        obtain ⟨m, idx⟩ := mi
        obtain ⟨_, f2, f3⟩ := findMacro_spec hf
        rw [hm] at f2
        dsimp only
        split
        · split
          · obtain ⟨n', a, b⟩ := Pot.advance hK h0 l1 l2
            exact Or.inr (Or.inr ⟨_, _, n', rfl, a, b⟩)
          · obtain ⟨n', a, b⟩ := Pot.enter pp.chains.length hK f2 (hexp m f2) (hrank m f2) (hraw m f2) h0 l1 l2 f3
              (macroArguments_suf pp.endLoc r)
            exact Or.inr (Or.inr ⟨_, _, n', rfl, a, b⟩)
        · obtain ⟨n', a, b⟩ := Pot.enter pp.chains.length hK f2 (hexp m f2) (hrank m f2) (hraw m f2) h0 l1 l2 f3
            List.suffix_rfl
          exact Or.inr (Or.inr ⟨_, _, n', rfl, a, b⟩)

theorem readLoop_pot {source : List Byte} (hK : 2 ≤ K)
    (hexp : ∀ m ∈ macros, m.expansion.length + 1 < K)
    (hrank : ∀ m ∈ macros, ∀ m' ∈ macros, m'.name <:+: m.expansion → rank m' < rank m)
    (hraw : ∀ m ∈ macros, NoRaw m.expansion) : ∀ (fuel : Nat) (pp : PP) (loc : Int) (n : Nat),
    pp.size < fuel → Inv macros source pp → Pot macros rank K pp.stack n →
    ∃ t q, readLoop fuel pp loc = some (t, q) ∧ Inv macros source q ∧
      (t.type = .endOfFile ∨ ∃ n', n' < n ∧ Pot macros rank K q.stack n') := by
  intro fuel
  induction fuel with
  | zero => intro pp loc n h; omega
  | succ fuel ih =>
    intro pp loc n hf I P
    unfold readLoop
    rcases step_pot (loc := loc) hK hexp hrank hraw I.mac I.endLoc P with h | ⟨q, loc', n', h, hlt, hp⟩ |
      ⟨t, q, n', h, hlt, hp⟩
    · rw [h]; exact ⟨_, _, rfl, I, Or.inl rfl⟩
    · rw [h]
      have := step_again_size h
      obtain ⟨t, q', a, b, c⟩ := ih q loc' n' (by omega) (step_again I h).1 hp
      refine ⟨t, q', a, b, ?_⟩
      rcases c with c | ⟨n2, c, d⟩
      · exact Or.inl c
      · exact Or.inr ⟨n2, by omega, d⟩
    · rw [h]
      exact ⟨t, q, rfl, (step_got I h).inv, Or.inr ⟨n', hlt, hp⟩⟩

theorem readAll_pot {source : List Byte} (hK : 2 ≤ K)
    (hexp : ∀ m ∈ macros, m.expansion.length + 1 < K)
    (hrank : ∀ m ∈ macros, ∀ m' ∈ macros, m'.name <:+: m.expansion → rank m' < rank m)
    (hraw : ∀ m ∈ macros, NoRaw m.expansion) : ∀ (k n : Nat) (pp : PP), n < k →
    Inv macros source pp → Pot macros rank K pp.stack n → ∃ ts q, readAll k pp = some (ts, q) := by
  intro k
  induction k with
  | zero => intro n pp h; omega
  | succ k ih =>
    intro n pp hn I P
    unfold readAll
    obtain ⟨t, q, h1, h2, h3⟩ := readLoop_pot hK hexp hrank hraw (pp.size + 1) pp (-1) n (by omega) I P
    rw [show readToken pp = some (t, q) from h1]
    dsimp only
    by_cases hE : t.type = .endOfFile
    · rw [if_pos hE]; exact ⟨_, _, rfl⟩
    rw [if_neg hE]
    rcases h3 with h3 | ⟨n', hlt, hp⟩
    · exact absurd h3 hE
    obtain ⟨ts, q', h⟩ := ih n' q (by omega) h2 hp
    rw [h]
    exact ⟨_, _, rfl⟩
end

theorem readAll_mono : ∀ (n k : Nat) (pp : PP) (x : List Token × PP), n ≤ k → readAll n pp = some x →
    readAll k pp = some x := by
  intro n
  induction n with
  | zero => intro k pp x _ h; cases h
  | succ n ih =>
    intro k pp x hk h
    cases k with
    | zero => omega
    | succ k =>
      unfold readAll at h ⊢
      cases ht : readToken pp with
      | none => rw [ht] at h; cases h
      | some p =>
        obtain ⟨t, pp'⟩ := p
        rw [ht] at h
        dsimp only at h ⊢
        split at h
        · rename_i hE; rw [if_pos hE]; exact h
        · rename_i hE
          rw [if_neg hE]
          cases ha : readAll n pp' with
          | none => rw [ha] at h; cases h
          | some y =>
            rw [ha] at h
            rw [ih k pp' y (by omega) ha]
            exact h

theorem length_le_sum (l : List Macro) : ∀ m ∈ l, m.expansion.length ≤ (l.map (·.expansion.length)).sum := by
  induction l with
  | nil => intro m h; cases h
  | cons x xs ih =>
    intro m h
    rcases List.mem_cons.mp h with rfl | h
    · simp
    · have := ih m h
      simp only [List.map_cons, List.sum_cons]; omega

theorem rank_le_sum (rank : Macro → Nat) (l : List Macro) : ∀ m ∈ l, rank m < (l.map rank).sum + 1 := by
  induction l with
  | nil => intro m h; cases h
  | cons x xs ih =>
    intro m h
    rcases List.mem_cons.mp h with rfl | h
    · simp only [List.map_cons, List.sum_cons]; omega
    · have := ih m h
      simp only [List.map_cons, List.sum_cons]; omega

theorem acyclic_ends {macros : List Macro} {source : List Byte} (h : Acyclic macros)
    (hs : NoRaw source) (hm : ∀ m ∈ macros, NoRaw m.expansion) :
    ∃ n ts q, ∀ k, n ≤ k → readAll k (PP.init macros source) = some (ts, q) := by
  obtain ⟨rank, hr⟩ := h
  have P : Pot macros rank ((macros.map (·.expansion.length)).sum + 2)
      (PP.init macros source).stack _ :=
    Pot.cons (f := ⟨0, source, source⟩) (k := (macros.map rank).sum + 1) List.suffix_rfl hs
      (fun m hm _ => rank_le_sum rank macros m hm) Pot.nil
  obtain ⟨ts, q, h⟩ := readAll_pot (by omega) (fun m hm => by have := length_le_sum macros m hm; omega) hr hm
    _ _ _ (Nat.lt_succ_self _) (init_inv macros source) P
  exact ⟨_, ts, q, fun k hk => readAll_mono _ k _ _ hk h⟩

end Verif.Cpp

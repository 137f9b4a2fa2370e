import Verif.Path.Lemmas
/-!
# Lemmas about normalising and relative paths
-/
namespace Verif.Path
open Verif Spec

theorem foldl_stepT_fst (ns : List (List Byte)) (x : Loc × Bool) :
    (ns.foldl stepT x).1 = ns.foldl Loc.step x.1 := by
  induction ns generalizing x with
  | nil => rfl
  | cons n ns ih => exact ih (stepT x n)

theorem followT_fst (win : Bool) (ps : List (List Byte)) (x : Loc × Bool) :
    (ps.foldl (followT win) x).1 = ps.foldl (follow win) x.1 := by
  induction ps generalizing x with
  | nil => rfl
  | cons p ps ih =>
    rw [List.foldl_cons, List.foldl_cons, ih]
    congr 1
    unfold followT follow
    split
    · exact foldl_stepT_fst _ _
    · exact foldl_stepT_fst _ _

theorem followT_gather (win : Bool) (ps : List (List Byte)) (acc : Anchor × List (List Byte)) :
    ps.foldl (followT win) (acc.2.foldl stepT (⟨acc.1, 0, []⟩, true)) =
      (gather win acc ps).2.foldl stepT (⟨(gather win acc ps).1, 0, []⟩, true) := by
  induction ps generalizing acc with
  | nil => rfl
  | cons p ps ih =>
    rw [List.foldl_cons, gather, ← ih]
    congr 1
    unfold followT
    split
    · next h => rw [h]
    · next h => rw [h]; dsimp only; rw [List.foldl_append]

theorem meaning_gather (win : Bool) (ps : List (List Byte)) :
    meaning win ps = ((gather win (.here, []) ps).2.foldl stepT
      (⟨(gather win (.here, []) ps).1, 0, []⟩, true)).1 := by
  rw [← followT_gather]
  exact (followT_fst win ps (⟨.here, 0, []⟩, true)).symm

theorem tame_gather (win : Bool) (ps : List (List Byte)) :
    tame win ps = ((gather win (.here, []) ps).2.foldl stepT
      (⟨(gather win (.here, []) ps).1, 0, []⟩, true)).2 := by
  rw [← followT_gather]
  rfl

theorem gather_fine (win : Bool) (acc : Anchor × List (List Byte)) (ps : List (List Byte))
    (h : NoDrive win ps) (ha : ∀ n ∈ acc.2, Fine win n) :
    ∀ n ∈ (gather win acc ps).2, Fine win n := by
  induction ps generalizing acc with
  | nil => exact ha
  | cons p ps ih =>
    rw [gather]
    apply ih _ (fun q hq => h q (List.mem_cons_of_mem _ hq))
    have hp := h p List.mem_cons_self
    cases hpp : parse win p with
    | mk a r =>
      rw [hpp] at hp
      cases a with
      | none =>
        dsimp only
        intro n hn
        rw [List.mem_append] at hn
        rcases hn with hn | hn
        · exact ha n hn
        · exact ⟨names_isName win r n hn, hp n hn⟩
      | some a =>
        dsimp only
        intro n hn
        exact ⟨names_isName win r n hn, hp n hn⟩

theorem noDrive_posix (ps : List (List Byte)) : NoDrive false ps := by
  intro p _ n hn
  obtain ⟨h1, h2⟩ := names_isName false _ n hn
  cases n with
  | nil => exact absurd rfl h1
  | cons c n => simp [parse, h2 c List.mem_cons_self]

/-- Pushing the anchor: the stack starts as the anchor. -/
theorem push_anchor (win : Bool) (a : Anchor) : (anchorStr win a).foldl push [] = anchorStr win a := by
  have hsep : ¬ (sepByte win = dot) := by cases win <;> decide
  cases a with
  | here => rfl
  | root => simp [anchorStr, push, hsep]
  | drive c => simp [anchorStr, push]
  | driveRoot c => simp [anchorStr, push]

theorem normComps_eq (win : Bool) (ps : List (List Byte)) :
    normComps win ps = some ((gather win (.here, []) ps).2.foldl push
      (anchorStr win (gather win (.here, []) ps).1)) := by
  unfold normComps
  rw [iterateOver_eq]
  show normLoop [] _ = _
  rw [normLoop_eq, List.foldl_append, push_anchor]

theorem normComps_agree (win : Bool) (ps : List (List Byte)) (h : NoDrive win ps) :
    ∃ s, normComps win ps = some s ∧ Agree win (meaning win ps) (tame win ps) s := by
  refine ⟨_, normComps_eq win ps, ?_⟩
  rw [meaning_gather, tame_gather]
  exact agree_fold _ (_, _) _ (agree_start (gather_possible win _ ps (possible_here win)))
    (gather_fine win _ ps h (by simp))

theorem Agree.form {win : Bool} {l : Loc} {ok : Bool} {s : List (List Byte)} (h : Agree win l ok s) :
    ∃ a u down, Form win a u down s := by
  cases ok with
  | true => exact ⟨_, _, _, h.2⟩
  | false => obtain ⟨⟨u, d, h⟩, _⟩ := h; exact ⟨_, _, _, h⟩

/-! ## Writing -/

/-- What an anchor is read back as; `more` if anything follows it. -/
def settle (a : Anchor) (more : Bool) : Anchor :=
  match a with
  | .drive c => if more then .driveRoot c else .drive c
  | a => a

theorem upStr_fine (win u : Bool) : ∀ n ∈ upStr u, Fine win n := by
  intro n hn
  cases u with
  | false => cases hn
  | true =>
    simp only [upStr, ↓reduceIte, List.mem_singleton] at hn
    subst hn
    exact ⟨isName_dotdot win, plain_dotdot win⟩

theorem Form.fine {win : Bool} {a : Anchor} {u : Bool} {down s : List (List Byte)}
    (h : Form win a u down s) : ∀ n ∈ upStr u ++ down, Fine win n := by
  intro n hn
  rw [List.mem_append] at hn
  rcases hn with hn | hn
  · exact upStr_fine win u n hn
  · exact ⟨(h.proper n hn).1, (h.proper n hn).2.2.2⟩

theorem writeLoop_names {win : Bool} {n : List Byte} (ns : List (List Byte)) (h : IsName win n) :
    writeLoop win false (n :: ns) = (n ++ ns.flatMap (sepByte win :: ·), true) := by
  rw [writeLoop, wantsSep_name h, writeLoop_true]

/-- `[]` or one separator. -/
def End (win : Bool) (t : List Byte) : Prop := t = [] ∨ t = [sepByte win]

theorem End.seps {win : Bool} {t : List Byte} (h : End win t) : ∀ c ∈ t, Spec.Sep win c := by
  rcases h with rfl | rfl
  · simp
  · intro c hc; rw [List.mem_singleton] at hc; subst hc; exact sep_sepByte win

/-- A list of names written without leading separator. -/
theorem names_written {win : Bool} {n : List Byte} (ns : List (List Byte)) (t : List Byte)
    (h : ∀ m ∈ n :: ns, IsName win m) (ht : End win t) :
    names win (n ++ ns.flatMap (sepByte win :: ·) ++ t) = n :: ns := by
  have := names_sep_names (n :: ns) t h ht.seps
  rw [List.flatMap_cons, List.append_assoc, List.cons_append, names_sep (sep_sepByte win)] at this
  rw [List.append_assoc]
  exact this

theorem sepByte_win : sepByte true = 92 := rfl

theorem wantsSep_root (win : Bool) (x : List Byte) : wantsSep win (x ++ [sepByte win]) = false := by
  unfold wantsSep
  rw [List.getLast?_append]
  have := (isSep_iff win (sepByte win)).mpr (sep_sepByte win)
  simp [this]

theorem writeLoop_down {win : Bool} (down : List (List Byte)) (t : List Byte)
    (h : ∀ m ∈ down, IsName win m)
    (ht : t = [] ∨ (t = [sepByte win] ∧ (writeLoop win false down).2 = true)) :
    names win ((writeLoop win false down).1 ++ t) = down := by
  cases down with
  | nil =>
    rcases ht with rfl | ⟨_, ht⟩
    · exact names_nil win
    · cases ht
  | cons n ns =>
    rw [writeLoop_names ns (h n List.mem_cons_self)]
    refine names_written ns t h ?_
    rcases ht with rfl | ⟨rfl, _⟩
    · exact Or.inl rfl
    · exact Or.inr rfl

theorem readBack {win : Bool} {a : Anchor} {u : Bool} {down s : List (List Byte)} {t : List Byte}
    (h : Form win a u down s) (hs : s ≠ [])
    (ht : t = [] ∨ (t = [sepByte win] ∧ (writeLoop win false s).2 = true)) :
    gather win (.here, []) [(writeLoop win false s).1 ++ t] =
      (settle a (decide (down ≠ [] ∨ t ≠ [])), upStr u ++ down) := by
  have hfine := h.fine
  have hend : End win t := by
    rcases ht with h | h
    · exact Or.inl h
    · exact Or.inr h.1
  have hnd : ∀ n ∈ down, IsName win n := fun n hn => (h.proper n hn).1
  rw [gather]
  cases ha : a with
  | here =>
    have hse : s = upStr u ++ down := by rw [h.eq, ha]; rfl
    rw [← hse] at hfine ⊢
    cases s with
    | nil => exact absurd rfl hs
    | cons n ns =>
      have hn := hfine n List.mem_cons_self
      rw [writeLoop_names ns hn.1]
      dsimp only
      rw [List.append_assoc, parse_tail hn (tail_names ns t hend.seps)]
      dsimp only
      rw [← List.append_assoc, names_written ns t (fun m hm => (hfine m hm).1) hend]
      rfl
  | root =>
    have hw := h.root ha
    subst hw
    have hu := h.up (by rw [ha]; simp)
    have hse : s = [sepByte false] :: down := by rw [h.eq, ha, hu]; rfl
    subst hse
    have hwl : writeLoop false false ([sepByte false] :: down) =
        (sepByte false :: (writeLoop false false down).1, (writeLoop false false down).2) := by
      rw [writeLoop, show wantsSep false [sepByte false] = false from rfl]; rfl
    rw [hwl] at ht ⊢
    dsimp only
    have hp : parse false (sepByte false :: (writeLoop false false down).1 ++ t) =
        (some .root, sepByte false :: (writeLoop false false down).1 ++ t) := by
      simp [parse, sep_sepByte false]
    rw [hp]
    dsimp only
    rw [List.cons_append, names_sep (sep_sepByte false), writeLoop_down down t hnd ht, hu]
    rfl
  | drive c =>
    obtain ⟨hL, hw⟩ := h.letter c (Or.inl ha)
    subst hw
    have hu := h.up (by rw [ha]; simp)
    have hse : s = [c, 58] :: down := by rw [h.eq, ha, hu]; rfl
    subst hse
    have hwl : writeLoop true false ([c, 58] :: down) =
        ([c, 58] ++ down.flatMap (sepByte true :: ·), true) := by
      rw [writeLoop, show wantsSep true [c, 58] = true by simp [wantsSep, isSep], writeLoop_true]
    rw [hwl]
    dsimp only
    have hnames := names_sep_names down t hnd hend.seps
    have hcase : (down.flatMap (sepByte true :: ·) ++ t = [] ∧ down = [] ∧ t = []) ∨
        (∃ r, down.flatMap (sepByte true :: ·) ++ t = sepByte true :: r ∧ (down ≠ [] ∨ t ≠ [])) := by
      cases down with
      | cons d ds => exact Or.inr ⟨_, rfl, Or.inl (by simp)⟩
      | nil =>
        rcases hend with rfl | rfl
        · exact Or.inl ⟨rfl, rfl, rfl⟩
        · exact Or.inr ⟨[], rfl, Or.inr (by simp)⟩
    rw [List.append_assoc]
    rcases hcase with ⟨e, e1, e2⟩ | ⟨r, e, e1⟩
    · have hp : parse true ([c, 58] ++ (down.flatMap (sepByte true :: ·) ++ t)) =
          (some (.drive c), down.flatMap (sepByte true :: ·) ++ t) := by
        rw [e]; simp [parse, hL]
      rw [hp]
      dsimp only
      rw [hnames, hu, e1, e2]
      rfl
    · have hp : parse true ([c, 58] ++ (down.flatMap (sepByte true :: ·) ++ t)) =
          (some (.driveRoot c), down.flatMap (sepByte true :: ·) ++ t) := by
        rw [e]; simp [parse, hL, sep_sepByte true]
      rw [hp]
      dsimp only
      rw [hnames, hu, decide_eq_true e1]
      rfl
  | driveRoot c =>
    obtain ⟨hL, hw⟩ := h.letter c (Or.inr ha)
    subst hw
    have hu := h.up (by rw [ha]; simp)
    have hse : s = [c, 58, sepByte true] :: down := by rw [h.eq, ha, hu]; rfl
    subst hse
    have hwl : writeLoop true false ([c, 58, sepByte true] :: down) =
        ([c, 58, sepByte true] ++ (writeLoop true false down).1, (writeLoop true false down).2) := by
      rw [writeLoop, show wantsSep true [c, 58, sepByte true] = false by simp [wantsSep, isSep, sepByte]]
    rw [hwl] at ht ⊢
    dsimp only
    have hp : parse true ([c, 58, sepByte true] ++ (writeLoop true false down).1 ++ t) =
        (some (.driveRoot c), sepByte true :: ((writeLoop true false down).1 ++ t)) := by
      simp [parse, hL, sep_sepByte true]
    rw [hp]
    dsimp only
    rw [names_sep (sep_sepByte true), writeLoop_down down t hnd ht, hu]
    rfl

theorem readDot (win : Bool) (t : List Byte) (ht : End win t) :
    gather win (.here, []) [[dot] ++ t] = (.here, [[dot]]) := by
  rw [gather, parse_tail ⟨isName_dot win, plain_dot win⟩ (by
    rcases ht with rfl | rfl
    · exact Or.inl rfl
    · exact Or.inr ⟨_, [], rfl, sep_sepByte win⟩)]
  dsimp only
  have := names_written (win := win) (n := [dot]) [] t (by
    intro m hm; rw [List.mem_singleton] at hm; subst hm; exact isName_dot win) ht
  rw [List.flatMap_nil, List.append_nil] at this
  rw [this]
  rfl

/-- What the joined path is. -/
theorem join_cases (win : Bool) (ps : List (List Byte)) (h : NoDrive win ps) :
    ∃ s, normComps win ps = some s ∧ Agree win (meaning win ps) (tame win ps) s ∧
      ((s = [] ∧ joinAndNormalize win ps =
          some ([dot] ++ if ps.getLast? = some [] then [sepByte win] else [])) ∨
       (s ≠ [] ∧ ∃ last, ps.getLast? = some last ∧ joinAndNormalize win ps =
          some ((writeLoop win false s).1 ++
            if OpenEnd win last ∧ (writeLoop win false s).2 = true then [sepByte win] else []))) := by
  obtain ⟨s, hs, ha⟩ := normComps_agree win ps h
  refine ⟨s, hs, ha, ?_⟩
  cases s with
  | nil =>
    refine Or.inl ⟨rfl, ?_⟩
    unfold joinAndNormalize
    rw [hs]
    dsimp only
    split <;> rfl
  | cons n ns =>
    refine Or.inr ⟨by simp, ?_⟩
    have hne : ps ≠ [] := by
      rintro rfl
      rw [normComps_eq] at hs
      cases hs
    obtain ⟨last, hl⟩ : ∃ last, ps.getLast? = some last := by
      cases hl : ps.getLast? with
      | none => exact absurd (List.getLast?_eq_none_iff.mp hl) hne
      | some l => exact ⟨l, rfl⟩
    refine ⟨last, hl, ?_⟩
    unfold joinAndNormalize
    rw [hs, hl]
    dsimp only
    have hiff : (last = [] ∨ last.getLast?.map (isSep win) = some true) ↔ OpenEnd win last := by
      unfold OpenEnd
      cases hg : last.getLast? with
      | none => simp [List.getLast?_eq_none_iff.mp hg]
      | some c =>
        have : last ≠ [] := by rintro rfl; cases hg
        simp [this, isSep_iff]
    by_cases hc : OpenEnd win last ∧ (writeLoop win false (n :: ns)).2 = true
    · rw [if_pos ⟨hiff.mpr hc.1, hc.2⟩, if_pos hc]
    · rw [if_neg (fun x => hc ⟨hiff.mp x.1, x.2⟩), if_neg hc, List.append_nil]

/-- The location a stack in normal form stands for. -/
theorem fold_form {win : Bool} {a : Anchor} {u : Bool} {down s : List (List Byte)}
    (h : Form win a u down s) (a' : Anchor) (ha : u = true → a' = .here) :
    (upStr u ++ down).foldl stepT (⟨a', 0, []⟩, true) = (⟨a', if u then 1 else 0, down⟩, true) := by
  have hdown : ∀ (d : List (List Byte)) (l : Loc), (∀ n ∈ d, Proper win n) →
      d.foldl stepT (l, true) = ({ l with down := l.down ++ d }, true) := by
    intro d
    induction d with
    | nil => intro l _; simp
    | cons n d ih =>
      intro l hd
      have hp := hd n List.mem_cons_self
      have : stepT (l, true) n = ({ l with down := l.down ++ [n] }, true) := by
        have h2 : (n == [46, 46]) = false := by simpa using hp.2.2.1
        unfold stepT okStep Loc.step
        dsimp only
        rw [if_neg hp.2.2.1, if_neg hp.2.1, h2]
        rfl
      rw [List.foldl_cons, this, ih _ (fun m hm => hd m (List.mem_cons_of_mem _ hm))]
      simp
  rw [List.foldl_append]
  cases u with
  | false =>
    rw [show upStr false = [] from rfl, List.foldl_nil, hdown down _ h.proper]
    simp
  | true =>
    have : a' = .here := ha rfl
    subst this
    rw [show upStr true = [dotdot] from rfl, List.foldl_cons, List.foldl_nil,
      show stepT (⟨.here, 0, []⟩, true) dotdot = (⟨.here, 1, []⟩, true) from rfl, hdown down _ h.proper]
    simp

theorem push_form {win : Bool} {a : Anchor} {u : Bool} {down s : List (List Byte)}
    (h : Form win a u down s) (x : List (List Byte)) (hx : u = true → x = []) :
    (upStr u ++ down).foldl push x = x ++ upStr u ++ down := by
  rw [List.foldl_append, push_propers _ _ h.proper]
  congr 1
  cases u with
  | false => simp [upStr]
  | true => rw [hx rfl]; rfl

/-! ## Relative paths -/

theorem upLoop_true (win : Bool) (n : Nat) :
    upLoop win n true = ((List.replicate n dotdot).flatMap (sepByte win :: ·), true) := by
  induction n with
  | zero => rfl
  | succ n ih => rw [upLoop, ih]; rfl

theorem upLoop_false (win : Bool) (n : Nat) :
    upLoop win (n + 1) false =
      (dotdot ++ (List.replicate n dotdot).flatMap (sepByte win :: ·), true) := by
  rw [upLoop, upLoop_true]; rfl

theorem downLoop_names {win : Bool} (ns : List (List Byte)) (h : ∀ n ∈ ns, IsName win n) :
    downLoop win true ns = some (ns.flatMap (sepByte win :: ·), true) := by
  induction ns with
  | nil => rfl
  | cons n ns ih =>
    have hn := h n List.mem_cons_self
    obtain ⟨l, hl⟩ : ∃ l, n.getLast? = some l := by
      cases hl : n.getLast? with
      | none => exact absurd (List.getLast?_eq_none_iff.mp hl) hn.1
      | some l => exact ⟨l, rfl⟩
    have hns := (not_isSep_iff win l).mpr (hn.2 l (List.mem_of_getLast? hl))
    rw [downLoop, hl]
    dsimp only
    rw [hns, Bool.not_false, ih (fun m hm => h m (List.mem_cons_of_mem _ hm))]
    rfl

theorem downLoop_first {win : Bool} (n : List Byte) (ns : List (List Byte))
    (h : ∀ m ∈ n :: ns, IsName win m) :
    downLoop win false (n :: ns) = some (n ++ ns.flatMap (sepByte win :: ·), true) := by
  have hn := h n List.mem_cons_self
  obtain ⟨l, hl⟩ : ∃ l, n.getLast? = some l := by
    cases hl : n.getLast? with
    | none => exact absurd (List.getLast?_eq_none_iff.mp hl) hn.1
    | some l => exact ⟨l, rfl⟩
  have hns := (not_isSep_iff win l).mpr (hn.2 l (List.mem_of_getLast? hl))
  rw [downLoop, hl]
  dsimp only
  rw [hns, Bool.not_false, downLoop_names ns (fun m hm => h m (List.mem_cons_of_mem _ hm))]
  rfl

/-- Writing names after `k` times `..`, or `.` when there is nothing to write. -/
theorem rel_write {win : Bool} (k : Nat) (ns : List (List Byte)) (h : ∀ n ∈ ns, IsName win n) :
    ∃ r2 w ws, downLoop win (upLoop win k false).2 ns = some r2 ∧
      (if ((upLoop win k false).1 ++ r2.1).length = 0 then ([dot], true)
        else ((upLoop win k false).1 ++ r2.1, r2.2)) = (w ++ ws.flatMap (sepByte win :: ·), true) ∧
      (w :: ws = List.replicate k dotdot ++ ns ∨ (k = 0 ∧ ns = [] ∧ w = [dot] ∧ ws = [])) := by
  cases k with
  | zero =>
    cases ns with
    | nil => exact ⟨([], false), [dot], [], rfl, rfl, Or.inr ⟨rfl, rfl, rfl, rfl⟩⟩
    | cons n ns =>
      refine ⟨_, n, ns, downLoop_first n ns h, ?_, Or.inl rfl⟩
      have hn := (h n List.mem_cons_self).1
      rw [if_neg]
      · rfl
      · show ¬ ([] ++ (n ++ _)).length = 0
        rw [List.nil_append, List.length_append]
        have := List.length_pos_iff.mpr hn
        omega
  | succ k =>
    refine ⟨(ns.flatMap (sepByte win :: ·), true), dotdot, List.replicate k dotdot ++ ns, ?_, ?_,
      Or.inl ?_⟩
    · rw [upLoop_false]; exact downLoop_names ns h
    · rw [upLoop_false, if_neg (by simp)]
      simp
    · rw [List.replicate_succ]; rfl

theorem push_ups (x : List (List Byte)) (k : Nat) (hk : k ≤ x.length) :
    (List.replicate k dotdot).foldl push x = x.take (x.length - k) := by
  induction k generalizing x with
  | zero => simp
  | succ k ih =>
    have hne : x ≠ [] := by intro e; subst e; simp at hk
    rw [List.replicate_succ, List.foldl_cons, push_dotdot_ne hne, ih _ (by simp; omega)]
    rw [List.dropLast_eq_take, List.take_take, List.length_take]
    congr 1
    omega

theorem matching_spec (a b : List (List Byte)) :
    matching a b ≤ a.length ∧ matching a b ≤ b.length ∧
      a.take (matching a b) = b.take (matching a b) := by
  induction a generalizing b with
  | nil => cases b <;> simp [matching]
  | cons x a ih =>
    cases b with
    | nil => simp [matching]
    | cons y b =>
      by_cases h : x = y
      · subst h
        have := ih b
        simp [matching, this.1, this.2.1, this.2.2]
      · simp [matching, h]

/-! ## Ends of paths -/

theorem getLast_name {win : Bool} {n : List Byte} (h : IsName win n) :
    ∃ l, n.getLast? = some l ∧ ¬ Spec.Sep win l := by
  cases hl : n.getLast? with
  | none => exact absurd (List.getLast?_eq_none_iff.mp hl) h.1
  | some l => exact ⟨l, rfl, h.2 l (List.mem_of_getLast? hl)⟩

theorem write_last {win : Bool} {n : List Byte} (h : IsName win n) (xs : List (List Byte)) (b : Bool) :
    (writeLoop win b (xs ++ [n])).2 = true ∧
      ∃ l, (writeLoop win b (xs ++ [n])).1.getLast? = some l ∧ ¬ Spec.Sep win l := by
  induction xs generalizing b with
  | nil =>
    obtain ⟨l, h1, h2⟩ := getLast_name h
    cases b with
    | true => exact ⟨rfl, l, by simp [writeLoop, List.getLast?_cons, h1], h2⟩
    | false => exact ⟨by simp [writeLoop, wantsSep_name h], l, by simp [writeLoop, h1], h2⟩
  | cons x xs ih =>
    cases b with
    | true =>
      obtain ⟨e1, l, e2, e3⟩ := ih true
      exact ⟨e1, l, by simp [writeLoop, List.getLast?_cons, e2], e3⟩
    | false =>
      obtain ⟨e1, l, e2, e3⟩ := ih (wantsSep win x)
      exact ⟨e1, l, by simp [writeLoop, e2], e3⟩

theorem flat_last {win : Bool} {w : List Byte} (ws : List (List Byte))
    (h : ∀ n ∈ w :: ws, IsName win n) :
    ∃ l, (w ++ ws.flatMap (sepByte win :: ·)).getLast? = some l ∧ ¬ Spec.Sep win l := by
  obtain ⟨xs, n, e⟩ : ∃ xs n, w :: ws = xs ++ [n] :=
    ⟨(w :: ws).dropLast, (w :: ws).getLast (by simp), (List.dropLast_concat_getLast (by simp)).symm⟩
  have h1 := (write_last (h n (by rw [e]; simp)) xs false).2
  rw [← e, writeLoop_names ws (h w List.mem_cons_self)] at h1
  exact h1

theorem openEnd_last {win : Bool} {x : List Byte} {l : Byte} (h : x.getLast? = some l) :
    OpenEnd win x ↔ Spec.Sep win l := by
  unfold OpenEnd; rw [h]

theorem openEnd_sep (win : Bool) (x : List Byte) : OpenEnd win (x ++ [sepByte win]) := by
  rw [openEnd_last (l := sepByte win) (by simp)]
  exact sep_sepByte win

theorem not_openEnd {win : Bool} {x : List Byte} (h : ∃ l, x.getLast? = some l ∧ ¬ Spec.Sep win l) :
    ¬ OpenEnd win x := by
  obtain ⟨l, h1, h2⟩ := h
  rw [openEnd_last h1]
  exact h2

/-- `joinAndNormalize` in terms of the stack and the last argument. -/
theorem join_eq {win : Bool} {ps : List (List Byte)} {s : List (List Byte)} {last : List Byte}
    (h : normComps win ps = some s) (hl : ps.getLast? = some last) :
    joinAndNormalize win ps =
      if s = [] then some ([dot] ++ if last = [] then [sepByte win] else [])
      else some ((writeLoop win false s).1 ++
        if OpenEnd win last ∧ (writeLoop win false s).2 = true then [sepByte win] else []) := by
  have hiff : (last = [] ∨ last.getLast?.map (isSep win) = some true) ↔ OpenEnd win last := by
    unfold OpenEnd
    cases hg : last.getLast? with
    | none => simp [List.getLast?_eq_none_iff.mp hg]
    | some c =>
      have : last ≠ [] := by rintro rfl; cases hg
      simp [this, isSep_iff]
  unfold joinAndNormalize
  rw [h, hl]
  cases s with
  | nil =>
    dsimp only
    rw [if_pos rfl]
    by_cases hx : last = []
    · rw [if_pos (by rw [hx]), if_pos hx]; rfl
    · rw [if_neg (by simpa using hx), if_neg hx]; rfl
  | cons n ns =>
    dsimp only
    rw [if_neg (show ¬ (n :: ns = []) by simp)]
    by_cases hc : OpenEnd win last ∧ (writeLoop win false (n :: ns)).2 = true
    · rw [if_pos ⟨hiff.mpr hc.1, hc.2⟩, if_pos hc]
    · rw [if_neg (fun x => hc ⟨hiff.mp x.1, x.2⟩), if_neg hc, List.append_nil]

/-- A trailing separator is written only after a name (or a drive without root). -/
theorem write_open {win : Bool} {a : Anchor} {u : Bool} {down s : List (List Byte)}
    (h : Form win a u down s) (hs : s ≠ []) (hf : (writeLoop win false s).2 = true) :
    ¬ OpenEnd win (writeLoop win false s).1 := by
  rcases List.eq_nil_or_concat down with hd | ⟨d, n, hd⟩
  · cases u with
    | true =>
      have ha : a = .here := by
        apply Classical.byContradiction
        intro ha
        have := h.up ha
        simp at this
      have hse : s = [dotdot] := by rw [h.eq, ha, hd]; rfl
      subst hse
      exact not_openEnd (write_last (isName_dotdot win) [] false).2
    | false =>
      have hse : s = anchorStr win a := by rw [h.eq, hd]; simp [upStr]
      subst hse
      cases ha : a with
      | here => rw [ha] at hs; exact absurd rfl hs
      | root =>
        rw [ha] at hf
        have : wantsSep win [sepByte win] = false := wantsSep_root win []
        simp [anchorStr, writeLoop, this] at hf
      | drive c =>
        obtain ⟨_, hw⟩ := h.letter c (Or.inl ha)
        subst hw
        exact not_openEnd ⟨58, by simp [anchorStr, writeLoop], by decide⟩
      | driveRoot c =>
        rw [ha] at hf
        have : wantsSep win [c, 58, sepByte win] = false := wantsSep_root win [c, 58]
        simp [anchorStr, writeLoop, this] at hf
  · have hse : s = (anchorStr win a ++ upStr u ++ d) ++ [n] := by
      rw [h.eq, hd, List.concat_eq_append]; simp
    rw [hse]
    exact not_openEnd (write_last (h.proper n (by rw [hd]; simp)).1 _ false).2

/-- Reading back what was written and writing it again gives the same. -/
theorem rewrite_same {win : Bool} {a : Anchor} {u : Bool} {down s : List (List Byte)} {t : List Byte}
    (h : Form win a u down s) (hs : s ≠ [])
    (ht : t = [] ∨ (t = [sepByte win] ∧ (writeLoop win false s).2 = true)) {ps : List (List Byte)}
    (hg : gather win (.here, []) ps = gather win (.here, []) [(writeLoop win false s).1 ++ t])
    (hl : ps.getLast? = some ((writeLoop win false s).1 ++ t)) :
    joinAndNormalize win ps = some ((writeLoop win false s).1 ++ t) := by
  have hrb := readBack h hs ht
  have hnc := normComps_eq win ps
  rw [hg, hrb] at hnc
  dsimp only at hnc
  have hua : u = true → a = .here := by
    intro hu
    apply Classical.byContradiction
    intro ha
    have := h.up ha
    rw [hu] at this
    cases this
  rw [push_form h _ (by
    intro hu
    rw [hua hu]; rfl)] at hnc
  by_cases hsame : settle a (decide (down ≠ [] ∨ t ≠ [])) = a
  · rw [hsame, ← h.eq] at hnc
    rw [join_eq hnc hl, if_neg hs]
    congr 2
    rcases ht with rfl | ⟨rfl, hf⟩
    · rw [List.append_nil]
      by_cases hf : (writeLoop win false s).2 = true
      · rw [if_neg]
        intro hx
        exact write_open h hs hf hx.1
      · rw [if_neg (fun hx => hf hx.2)]
    · rw [if_pos ⟨openEnd_sep win _, hf⟩]
  · obtain ⟨c, ha, hb⟩ : ∃ c, a = .drive c ∧ (down ≠ [] ∨ t ≠ []) := by
      cases a with
      | here => exact absurd rfl hsame
      | root => exact absurd rfl hsame
      | driveRoot c => exact absurd rfl hsame
      | drive c =>
        refine ⟨c, rfl, ?_⟩
        apply Classical.byContradiction
        intro hb
        apply hsame
        rw [decide_eq_false hb]; rfl
    have hu := h.up (by rw [ha]; simp)
    obtain ⟨_, hw⟩ := h.letter c (Or.inl ha)
    subst hw
    have hse : s = [c, 58] :: down := by rw [h.eq, ha, hu]; rfl
    have hwl : writeLoop true false s = ([c, 58] ++ down.flatMap (sepByte true :: ·), true) := by
      rw [hse, writeLoop, show wantsSep true [c, 58] = true by simp [wantsSep, isSep], writeLoop_true]
    rw [ha, hu, decide_eq_true hb] at hnc
    replace hnc : normComps true ps = some ([c, 58, sepByte true] :: down) := hnc
    rw [join_eq hnc hl, hwl, if_neg (by simp)]
    have hwl2 : writeLoop true false ([c, 58, sepByte true] :: down) =
        ([c, 58, sepByte true] ++ (writeLoop true false down).1, (writeLoop true false down).2) := by
      rw [writeLoop, show wantsSep true [c, 58, sepByte true] = false from wantsSep_root true [c, 58]]
    rw [hwl2]
    cases hd : down with
    | nil =>
      rw [hd] at hb
      have htt : t = [sepByte true] := by
        rcases ht with rfl | ht
        · simp at hb
        · exact ht.1
      subst htt
      simp [writeLoop]
    | cons d ds =>
      have hdn := (h.proper d (by rw [hd]; simp)).1
      rw [writeLoop_names ds hdn]
      dsimp only
      rcases ht with rfl | ⟨rfl, hf⟩
      · rw [List.append_nil, if_neg]
        · simp
        · intro hx
          have hno := write_open h hs (by rw [hwl])
          rw [hwl, hd] at hno
          exact hno (by simpa using hx.1)
      · rw [if_pos ⟨openEnd_sep true _, rfl⟩]
        simp

/-- Prefixes of a stack in normal form are one piece at most. -/
theorem Form.drop_proper {win : Bool} {a : Anchor} {u : Bool} {down s : List (List Byte)}
    (h : Form win a u down s) {m : Nat} (hm : 0 < m) : ∀ n ∈ s.drop m, Proper win n := by
  have hpre : (anchorStr win a ++ upStr u).length ≤ 1 := by
    cases u with
    | false => cases a <;> simp [anchorStr, upStr]
    | true =>
      have ha : a = .here := by
        apply Classical.byContradiction
        intro ha
        have := h.up ha
        cases this
      rw [ha]; simp [anchorStr, upStr]
  intro n hn
  rw [h.eq, List.drop_append] at hn
  rw [List.drop_eq_nil_of_le (by omega), List.nil_append] at hn
  exact h.proper n (List.mem_of_mem_drop hn)

theorem push_rest {win : Bool} {a : Anchor} {u : Bool} {down s : List (List Byte)}
    (h : Form win a u down s) (m : Nat) (hm : 0 < m ∨ a = .here) :
    (s.drop m).foldl push (s.take m) = s := by
  rcases Nat.eq_zero_or_pos m with rfl | hpos
  · have ha : a = .here := by
      rcases hm with hm | hm
      · omega
      · exact hm
    have hse : s = upStr u ++ down := by rw [h.eq, ha]; rfl
    rw [List.drop_zero, List.take_zero, hse]
    exact push_form h [] (fun _ => rfl)
  · rw [push_propers _ _ (h.drop_proper hpos), List.take_append_drop]

/-- The relative path read after the ancestor. -/
theorem rel_join {win : Bool} {anc : List Byte} {a : Anchor} {u : Bool} {down A D : List (List Byte)}
    (hA : normComps win [anc] = some A) (hD : Form win a u down D)
    (hm : 0 < matching A D ∨ a = .here) (t : List Byte) (ht : End win t)
    {w : List Byte} {ws : List (List Byte)}
    (hw : w :: ws = List.replicate (A.length - matching A D) dotdot ++ D.drop (matching A D) ∨
      (A.length - matching A D = 0 ∧ D.drop (matching A D) = [] ∧ w = [dot] ∧ ws = [])) :
    normComps win [anc, w ++ ws.flatMap (sepByte win :: ·) ++ t] = some D ∧
      (∀ n ∈ w :: ws, Fine win n) := by
  obtain ⟨m1, m2, m3⟩ := matching_spec A D
  have hdfine : ∀ n ∈ D.drop (matching A D), Fine win n := by
    intro n hn
    rcases hm with hm | hm
    · have := hD.drop_proper hm n hn
      exact ⟨this.1, this.2.2.2⟩
    · apply hD.fine
      have hse : D = upStr u ++ down := by rw [hD.eq, hm]; rfl
      rw [← hse]
      exact List.mem_of_mem_drop hn
  have hfine : ∀ n ∈ w :: ws, Fine win n := by
    rcases hw with hw | ⟨_, _, h1, h2⟩
    · rw [hw]
      intro n hn
      rw [List.mem_append] at hn
      rcases hn with hn | hn
      · rw [(List.mem_replicate.mp hn).2]
        exact ⟨isName_dotdot win, plain_dotdot win⟩
      · exact hdfine n hn
    · rw [h1, h2]
      intro n hn
      rw [List.mem_singleton] at hn
      subst hn
      exact ⟨isName_dot win, plain_dot win⟩
  refine ⟨?_, hfine⟩
  have hn := hfine w List.mem_cons_self
  have hg : gather win (.here, []) [anc, w ++ ws.flatMap (sepByte win :: ·) ++ t] =
      ((gather win (.here, []) [anc]).1, (gather win (.here, []) [anc]).2 ++ (w :: ws)) := by
    have : [anc, w ++ ws.flatMap (sepByte win :: ·) ++ t] =
      [anc] ++ [w ++ ws.flatMap (sepByte win :: ·) ++ t] := rfl
    rw [this, gather_append]
    generalize gather win (.here, []) [anc] = acc
    rw [gather]
    rw [List.append_assoc, parse_tail hn (tail_names ws t ht.seps)]
    dsimp only
    rw [← List.append_assoc, names_written ws t (fun m hm => (hfine m hm).1) ht]
    rfl
  rw [normComps_eq, hg]
  dsimp only
  rw [normComps_eq] at hA
  injection hA with hA
  rw [List.foldl_append, hA]
  congr 1
  rcases hw with hw | ⟨h0, h1, h2, h3⟩
  · rw [hw, List.foldl_append, push_ups A _ (by omega)]
    rw [show A.length - (A.length - matching A D) = matching A D by omega, m3]
    exact push_rest hD _ hm
  · rw [h2, h3]
    show push A [dot] = D
    rw [push_dot]
    have e1 : matching A D = A.length := by omega
    have e2 : D.length ≤ matching A D := List.drop_eq_nil_iff.mp h1
    rw [List.take_of_length_le (by omega), List.take_of_length_le e2] at m3
    exact m3

end Verif.Path

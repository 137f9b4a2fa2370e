import Verif.Cpu.Spec
/-!
# The processors of the machine — lemmas
-/
namespace Verif.Cpu
open Verif

/-! ## Grouping -/

theorem mem_firsts {α : Type} [DecidableEq α] (l : List α) (a : α) : a ∈ firsts l ↔ a ∈ l := by
  induction l with
  | nil => exact Iff.rfl
  | cons x l ih =>
    by_cases h : a = x
    · simp [firsts, h]
    · simp [firsts, h, ih]

theorem firsts_snoc {α : Type} [DecidableEq α] (l : List α) (a : α) :
    firsts (l ++ [a]) = if a ∈ l then firsts l else firsts l ++ [a] := by
  induction l with
  | nil => rfl
  | cons x l ih =>
    rw [List.cons_append]
    unfold firsts
    rw [ih]
    by_cases h : a = x
    · subst h
      rw [if_pos (List.mem_cons_self ..)]
      split
      · rfl
      · simp
    · by_cases hl : a ∈ l
      · rw [if_pos hl, if_pos (List.mem_cons_of_mem _ hl)]
      · rw [if_neg hl, if_neg (by simp [h, hl])]
        simp [h]

theorem firsts_nodup {α : Type} [DecidableEq α] (l : List α) : (firsts l).Nodup := by
  induction l with
  | nil => exact List.nodup_nil
  | cons x l ih =>
    unfold firsts
    rw [List.nodup_cons]
    exact ⟨by simp, ih.filter _⟩

/-- Grouping by a key. -/
def group {α κ ν : Type} [DecidableEq κ] (key : α → κ) (val : α → ν) (l : List α) : List (List ν) :=
  (firsts (l.map key)).map fun k => (l.filter fun a => key a = k).map val

/-- One element for each key. -/
def reps {α κ : Type} [DecidableEq κ] (key : α → κ) : List α → List α
  | [] => []
  | x :: l => x :: (reps key l).filter fun y => key y ≠ key x

theorem reps_mem {α κ : Type} [DecidableEq κ] (key : α → κ) (l : List α) : ∀ a ∈ reps key l, a ∈ l := by
  induction l with
  | nil => intro a h; exact h
  | cons x l ih =>
    intro a h
    unfold reps at h
    rcases List.mem_cons.1 h with h | h
    · rw [h]; exact List.mem_cons_self ..
    · exact List.mem_cons_of_mem _ (ih a (List.mem_filter.1 h).1)

theorem firsts_reps {α κ : Type} [DecidableEq κ] (key : α → κ) (l : List α) :
    firsts (l.map key) = (reps key l).map key := by
  induction l with
  | nil => rfl
  | cons x l ih =>
    rw [List.map_cons]
    unfold firsts reps
    rw [ih, List.map_cons, List.filter_map]
    rfl

theorem reps_congr {α κ κ' : Type} [DecidableEq κ] [DecidableEq κ'] (key : α → κ) (key' : α → κ') (l : List α)
    (h : ∀ a ∈ l, ∀ b ∈ l, key a = key b ↔ key' a = key' b) : reps key l = reps key' l := by
  induction l with
  | nil => rfl
  | cons x l ih =>
    unfold reps
    rw [ih fun a ha b hb => h a (List.mem_cons_of_mem _ ha) b (List.mem_cons_of_mem _ hb)]
    congr 1
    apply List.filter_congr
    intro y hy
    have := h y (List.mem_cons_of_mem _ (reps_mem _ _ y hy)) x (List.mem_cons_self ..)
    simp [this]

theorem group_congr {α κ κ' ν : Type} [DecidableEq κ] [DecidableEq κ'] (key : α → κ) (key' : α → κ') (val : α → ν)
    (l : List α) (h : ∀ a ∈ l, ∀ b ∈ l, key a = key b ↔ key' a = key' b) : group key val l = group key' val l := by
  unfold group
  rw [firsts_reps, firsts_reps, reps_congr key key' l h, List.map_map, List.map_map]
  apply List.map_congr_left
  intro r hr
  have hr' := reps_mem _ _ r hr
  dsimp only [Function.comp]
  congr 1
  apply List.filter_congr
  intro y hy
  simp [h y hy r hr']

theorem group_map {α β κ ν : Type} [DecidableEq κ] (f : α → β) (key : β → κ) (val : β → ν) (l : List α) :
    group key val (l.map f) = group (fun a => key (f a)) (fun a => val (f a)) l := by
  unfold group
  rw [List.map_map]
  apply List.map_congr_left
  intro k _
  rw [List.filter_map, List.map_map]
  rfl

theorem group_nonempty {α κ ν : Type} [DecidableEq κ] (key : α → κ) (val : α → ν) (l : List α) :
    ∀ g ∈ group key val l, g ≠ [] := by
  intro g hg
  unfold group at hg
  obtain ⟨k, hk, rfl⟩ := List.mem_map.1 hg
  rw [mem_firsts] at hk
  obtain ⟨a, ha, rfl⟩ := List.mem_map.1 hk
  intro h
  rw [List.map_eq_nil_iff, List.filter_eq_nil_iff] at h
  exact h a ha (by simp)

theorem flat_filter {α κ : Type} [DecidableEq κ] (key : α → κ) (l : List α) : ∀ (ks : List κ), ks.Nodup →
    (ks.flatMap fun k => l.filter fun a => key a = k).Perm (l.filter fun a => key a ∈ ks) := by
  intro ks
  induction ks with
  | nil => intro _; simp
  | cons k ks ih =>
    intro hn
    rw [List.nodup_cons] at hn
    rw [List.flatMap_cons]
    refine ((ih hn.2).append_left _).trans ?_
    have h1 : l.filter (fun a => key a = k) = (l.filter fun a => key a ∈ k :: ks).filter (fun a => key a = k) := by
      rw [List.filter_filter]
      apply List.filter_congr
      intro a _
      by_cases h : key a = k <;> simp [h]
    have h2 : l.filter (fun a => key a ∈ ks) = (l.filter fun a => key a ∈ k :: ks).filter (fun a => !decide (key a = k)) := by
      rw [List.filter_filter]
      apply List.filter_congr
      intro a _
      by_cases h : key a = k
      · have : k ∉ ks := hn.1
        simp [h, this]
      · simp [h]
    rw [h1, h2]
    exact List.filter_append_perm _ _

theorem group_perm {α κ ν : Type} [DecidableEq κ] (key : α → κ) (val : α → ν) (l : List α) :
    (group key val l).flatten.Perm (l.map val) := by
  have h := (flat_filter key l (firsts (l.map key)) (firsts_nodup _)).map val
  have e : l.filter (fun a => key a ∈ firsts (l.map key)) = l := by
    rw [List.filter_eq_self]
    intro a ha
    simp only [decide_eq_true_eq, mem_firsts]
    exact List.mem_map_of_mem ha
  rw [e] at h
  refine List.Perm.trans (List.Perm.of_eq ?_) h
  unfold group
  rw [List.map_flatMap, List.flatMap_def]

/-! ## The map and the vector -/

theorem lookup_zipIdx {α : Type} [DecidableEq α] (x : α) : ∀ (l : List α) (k : Nat),
    (x ∉ l → (l.zipIdx k).lookup x = none) ∧
    (x ∈ l → ∃ i, (l.zipIdx k).lookup x = some (k + i) ∧ l[i]? = some x) := by
  intro l
  induction l with
  | nil => intro k; exact ⟨fun _ => rfl, fun h => by cases h⟩
  | cons y l ih =>
    intro k
    rw [List.zipIdx_cons, List.lookup_cons]
    by_cases h : x = y
    · subst h
      simp only [BEq.rfl, List.mem_cons, true_or, not_true, false_implies, true_and, forall_const]
      exact ⟨0, rfl, rfl⟩
    · have hb : (x == y) = false := by simp [h]
      rw [hb]
      obtain ⟨i1, i2⟩ := ih (k + 1)
      refine ⟨fun hn => i1 (fun hm => hn (List.mem_cons_of_mem _ hm)), fun hm => ?_⟩
      rcases List.mem_cons.1 hm with hm | hm
      · exact absurd hm h
      obtain ⟨i, e1, e2⟩ := i2 hm
      exact ⟨i + 1, by rw [show k + (i + 1) = k + 1 + i by omega]; exact e1, by simpa using e2⟩

/-- The state after the processors in the list. -/
def Inv (st : St) (fs : List (Int × CoreID)) : Prop :=
  st.vec = group Prod.snd Prod.fst fs ∧ st.num = fs.length ∧ st.index = (firsts (fs.map Prod.snd)).zipIdx

theorem group_snoc_new {fs : List (Int × CoreID)} {p : Int} {id : CoreID} (h : id ∉ fs.map Prod.snd) :
    group Prod.snd Prod.fst (fs ++ [(p, id)]) = group Prod.snd Prod.fst fs ++ [[p]] := by
  unfold group
  rw [List.map_append, List.map_cons, List.map_nil, firsts_snoc, if_neg h, List.map_append]
  congr 1
  · apply List.map_congr_left
    intro k hk
    have : k ≠ id := by
      rintro rfl
      exact h ((mem_firsts _ _).1 hk)
    rw [List.filter_append]
    simp [Ne.symm this]
  · have : fs.filter (fun a => a.2 = id) = [] := by
      rw [List.filter_eq_nil_iff]
      intro a ha he
      simp only [decide_eq_true_eq] at he
      exact h (he ▸ List.mem_map_of_mem ha)
    simp [List.filter_append, this]

theorem group_snoc_old {fs : List (Int × CoreID)} {p : Int} {id : CoreID} {i : Nat}
    (h : (firsts (fs.map Prod.snd))[i]? = some id) :
    ∃ l, (group Prod.snd Prod.fst fs)[i]? = some l ∧
      group Prod.snd Prod.fst (fs ++ [(p, id)]) = (group Prod.snd Prod.fst fs).set i (l ++ [p]) := by
  have hm : id ∈ fs.map Prod.snd := (mem_firsts _ _).1 (List.mem_of_getElem? h)
  refine ⟨(fs.filter fun a => a.2 = id).map Prod.fst, ?_, ?_⟩
  · unfold group
    rw [List.getElem?_map, h]
    rfl
  · unfold group
    rw [List.map_append, List.map_cons, List.map_nil, firsts_snoc, if_pos hm]
    apply List.ext_getElem?
    intro j
    rw [List.getElem?_map, List.getElem?_set]
    by_cases hj : i = j
    · subst hj
      have hlt : i < (firsts (fs.map Prod.snd)).length := by
        rw [List.getElem?_eq_some_iff] at h
        exact h.1
      rw [h, if_pos rfl, if_pos (by rw [List.length_map]; exact hlt)]
      simp [List.filter_append]
    · rw [if_neg hj, List.getElem?_map]
      cases he : (firsts (fs.map Prod.snd))[j]? with
      | none => rfl
      | some k =>
        have hk : k ≠ id := by
          rintro rfl
          have a1 := (List.getElem?_eq_some_iff.1 h).1
          exact hj ((List.getElem?_inj a1 (firsts_nodup (fs.map Prod.snd))).1 (h.trans he.symm))
        simp [List.filter_append, Ne.symm hk]

theorem flush_inv {st : St} {fs : List (Int × CoreID)} (h : Inv st fs) (hp : 0 ≤ st.proc) :
    ∃ st', flush st = some st' ∧ Inv st' (fs ++ [(st.proc, effective st.proc st.id)]) ∧ st'.proc = -1 ∧
      st'.id = ⟨-1, -1⟩ := by
  obtain ⟨h1, h2, h3⟩ := h
  unfold flush
  rw [if_pos hp]
  dsimp only
  generalize hid : effective st.proc st.id = id
  obtain ⟨l1, l2⟩ := lookup_zipIdx id (firsts (fs.map Prod.snd)) 0
  by_cases hm : id ∈ fs.map Prod.snd
  · obtain ⟨i, e1, e2⟩ := l2 ((mem_firsts _ _).2 hm)
    rw [Nat.zero_add] at e1
    obtain ⟨l, g1, g2⟩ := group_snoc_old (p := st.proc) e2
    rw [h3, e1]
    dsimp only
    rw [h1, g1]
    refine ⟨_, rfl, ⟨g2.symm, by simp [h2], ?_⟩, rfl, rfl⟩
    rw [List.map_append, List.map_cons, List.map_nil, firsts_snoc, if_pos hm]
  · rw [h3, l1 (fun h => hm ((mem_firsts _ _).1 h))]
    refine ⟨_, rfl, ⟨?_, by simp [h2], ?_⟩, rfl, rfl⟩
    · rw [group_snoc_new hm, h1]
    · rw [List.map_append, List.map_cons, List.map_nil, firsts_snoc, if_neg hm, List.zipIdx_append]
      congr 1
      rw [h1]
      unfold group
      simp

theorem flush_none {st : St} {fs : List (Int × CoreID)} (h : Inv st fs) (hp : ¬ 0 ≤ st.proc) :
    ∃ st', flush st = some st' ∧ Inv st' fs ∧ st'.proc = -1 ∧ st'.id = ⟨-1, -1⟩ := by
  unfold flush
  rw [if_neg hp]
  exact ⟨_, rfl, h, rfl, rfl⟩

/-! ## Lines -/

theorem takeWhile_colon {b : List Byte} (h : 58 ∉ b) (v : List Byte) :
    (b ++ 58 :: v).takeWhile (· != 58) = b ∧ (b ++ 58 :: v).dropWhile (· != 58) = 58 :: v := by
  induction b with
  | nil => exact ⟨rfl, rfl⟩
  | cons c b ih =>
    have hc : c ≠ 58 := fun e => h (e ▸ List.mem_cons_self ..)
    obtain ⟨i1, i2⟩ := ih fun hm => h (List.mem_cons_of_mem _ hm)
    have hb : (c != 58) = true := by simp [hc]
    rw [List.cons_append, List.takeWhile_cons, List.dropWhile_cons, hb]
    simp only [if_true]
    exact ⟨by rw [i1], i2⟩

theorem no_colon {l : List Byte} (h : 58 ∉ l) : readLine l = some .other := by
  unfold readLine
  have : l.dropWhile (· != 58) = [] := by
    induction l with
    | nil => rfl
    | cons c l ih =>
      have hc : c ≠ 58 := fun e => h (e ▸ List.mem_cons_self ..)
      have hb : (c != 58) = true := by simp [hc]
      rw [List.dropWhile_cons, hb]
      simp only [if_true]
      exact ih fun hm => h (List.mem_cons_of_mem _ hm)
  rw [this]

theorem takeWhile_all {ds : List Byte} (h : ∀ c ∈ ds, 48 ≤ c.toNat ∧ c.toNat ≤ 57) : ds.takeWhile isDigit = ds := by
  induction ds with
  | nil => rfl
  | cons c ds ih =>
    have hc : isDigit c = true := by simp [isDigit, h c (List.mem_cons_self ..)]
    rw [List.takeWhile_cons, hc]
    simp only [if_true]
    rw [ih fun x hx => h x (List.mem_cons_of_mem _ hx)]

theorem scan_decimal {ds : List Byte} {n : Nat} (h : IsDecimal ds n) (hn : n < 2147483648) :
    scanInt (32 :: ds) = some (some (n : Int)) := by
  obtain ⟨h1, h2, h3⟩ := h
  have e1 : (32 :: ds).dropWhile isSpace = ds := by
    have : isSpace 32 = true := rfl
    rw [List.dropWhile_cons, this]
    simp only [if_true]
    cases ds with
    | nil => rfl
    | cons c ds =>
      have hc := h2 c (List.mem_cons_self ..)
      have : isSpace c = false := by
        have : c ≠ 32 := by
          rintro rfl
          exact absurd hc.1 (by decide)
        simp only [isSpace, Bool.or_eq_false_iff, Bool.and_eq_false_iff, decide_eq_false_iff_not, beq_eq_false_iff_ne]
        exact ⟨this, Or.inr (by omega)⟩
      rw [List.dropWhile_cons, this]
      rfl
  have e2 : scanSign ds = (false, ds) := by
    cases ds with
    | nil => rfl
    | cons c ds =>
      have hc := h2 c (List.mem_cons_self ..)
      unfold scanSign
      dsimp only
      rw [if_neg, if_neg]
      · rintro rfl; exact absurd hc.1 (by decide)
      · rintro rfl; exact absurd hc.1 (by decide)
  unfold scanInt
  rw [e1, e2]
  dsimp only
  rw [takeWhile_all h2, if_neg h1]
  have e3 : digitsValue ds = n := h3
  rw [e3]
  simp only [Bool.false_eq_true, if_false]
  rw [if_pos (by omega)]

theorem label_pad {lbl pad : List Byte} (h : lbl ≠ []) (hl : ∀ c, lbl.getLast? = some c → c ≠ 32 ∧ c ≠ 9)
    (hp : ∀ c ∈ pad, c = 32 ∨ c = 9) : label (lbl ++ pad) = lbl := by
  unfold label
  rw [if_neg (by simp [h]), List.reverse_append]
  rw [List.dropWhile_append_of_pos]
  · have : ∀ r : List Byte, (∀ c, r.head? = some c → c ≠ 32 ∧ c ≠ 9) → r.dropWhile (fun c => c == 32 || c == 9) = r := by
      intro r hr
      cases r with
      | nil => rfl
      | cons c r =>
        have := hr c rfl
        rw [List.dropWhile_cons]
        simp [this]
    rw [this, List.reverse_reverse]
    intro c hc
    rw [List.head?_reverse] at hc
    exact hl c hc
  · intro c hc
    rcases hp c (List.mem_reverse.1 hc) with rfl | rfl <;> rfl

theorem label_prefix (before : List Byte) (h : before ≠ []) : label before <+: before := by
  unfold label
  rw [if_neg h]
  have := (List.dropWhile_suffix (fun c : Byte => c == 32 || c == 9) (l := before.reverse))
  have h2 := List.reverse_prefix.2 this
  rwa [List.reverse_reverse] at h2

theorem read_line {lbl line : List Byte} {n : Nat} (h : LineOf lbl n line) (h0 : lbl ≠ []) (hc : 58 ∉ lbl)
    (hl : ∀ c, lbl.getLast? = some c → c ≠ 32 ∧ c ≠ 9) :
    readLine line = if lbl = sProcessor then some (.processor n) else if lbl = sPhysical then some (.physical n)
      else if lbl = sCore then some (.core n) else some .other := by
  obtain ⟨pad, ds, rfl, hp, hd, hn⟩ := h
  have hb : 58 ∉ lbl ++ pad := by
    intro hm
    rcases List.mem_append.1 hm with hm | hm
    · exact hc hm
    · rcases hp 58 hm with h | h <;> exact absurd h (by decide)
  have e : lbl ++ pad ++ [58, 32] ++ ds = (lbl ++ pad) ++ 58 :: (32 :: ds) := by simp
  unfold readLine
  rw [e, (takeWhile_colon hb _).1, (takeWhile_colon hb _).2]
  dsimp only
  rw [scan_decimal hd hn, label_pad h0 hl hp]
  rfl

theorem read_processor {line : List Byte} {n : Nat} (h : LineOf sProcessor n line) :
    readLine line = some (.processor n) :=
  (read_line h (by decide) (by decide) (by decide)).trans (if_pos rfl)

theorem read_physical {line : List Byte} {n : Nat} (h : LineOf sPhysical n line) :
    readLine line = some (.physical n) :=
  (read_line h (by decide) (by decide) (by decide)).trans ((if_neg (by decide)).trans (if_pos rfl))

theorem read_core {line : List Byte} {n : Nat} (h : LineOf sCore n line) : readLine line = some (.core n) :=
  (read_line h (by decide) (by decide) (by decide)).trans
    ((if_neg (by decide)).trans ((if_neg (by decide)).trans (if_pos rfl)))

theorem read_other {line : List Byte} (h : OtherLine line) : readLine line = some .other := by
  rcases h with h | ⟨b, v, rfl, hb, hv, h1, h2, h3⟩
  · exact no_colon h
  have e : b ++ [58] ++ v = b ++ 58 :: v := by simp
  unfold readLine
  rw [e, (takeWhile_colon hb _).1, (takeWhile_colon hb _).2]
  dsimp only
  cases hs : scanInt v with
  | none => exact absurd hs hv
  | some o =>
    cases o with
    | none => rfl
    | some x =>
      dsimp only
      by_cases h0 : b = []
      · subst h0; rfl
      have hp := label_prefix b h0
      rw [if_neg (fun he => h1 (by unfold sProcessor; rw [← he]; exact hp)),
        if_neg (fun he => h2 (by unfold sPhysical; rw [← he]; exact hp)),
        if_neg (fun he => h3 (by unfold sCore; rw [← he]; exact hp))]

/-! ## The whole text -/

theorem lines_line {l : List Byte} (h : 10 ∉ l) : lines l = [l] ∧ ∀ r, lines (l ++ 10 :: r) = l :: lines r := by
  induction l with
  | nil => exact ⟨rfl, fun r => if_pos rfl⟩
  | cons c l ih =>
    have hc : c ≠ 10 := fun e => h (e ▸ List.mem_cons_self ..)
    obtain ⟨i1, i2⟩ := ih fun hm => h (List.mem_cons_of_mem _ hm)
    refine ⟨?_, fun r => ?_⟩
    · unfold lines; rw [if_neg hc, i1]
    · rw [List.cons_append]
      conv => lhs; unfold lines
      rw [if_neg hc, i2]

theorem lines_join : ∀ (ls : List (List Byte)), ls ≠ [] → (∀ l ∈ ls, 10 ∉ l) → lines ([10].intercalate ls) = ls := by
  intro ls
  induction ls with
  | nil => intro h _; exact absurd rfl h
  | cons l ls ih =>
    intro _ hl
    have h1 := lines_line (hl l (List.mem_cons_self ..))
    cases ls with
    | nil =>
      have : [10].intercalate [l] = l := by simp [List.intercalate]
      rw [this]
      exact h1.1
    | cons l' ls =>
      have : [10].intercalate (l :: l' :: ls) = l ++ 10 :: [10].intercalate (l' :: ls) := by
        simp [List.intercalate]
      rw [this, h1.2, ih (by simp) fun x hx => hl x (List.mem_cons_of_mem _ hx)]

/-- The given number, or else what there was. -/
def pick (o : Option Nat) (d : Int) : Int := match o with | some n => n | none => d

theorem collect_fields {fs : List (List Byte)} {p c : Option Nat} (h : Fields fs p c) : ∀ (st : St) (ls : List (List Byte)),
    collect st (fs ++ ls) = collect { st with id := ⟨pick p st.id.physical, pick c st.id.core⟩ } ls := by
  induction h with
  | nil => intro st ls; rfl
  | other ho _ ih =>
    intro st ls
    rw [List.cons_append]
    conv => lhs; unfold collect
    rw [read_other ho]
    exact ih st ls
  | package ho _ ih =>
    intro st ls
    rw [List.cons_append]
    conv => lhs; unfold collect
    rw [read_physical ho]
    exact ih _ ls
  | core ho _ ih =>
    intro st ls
    rw [List.cons_append]
    conv => lhs; unfold collect
    rw [read_core ho]
    exact ih _ ls

/-- The identification of a processor. -/
def idOf (p : Proc) : CoreID := effective p.number ⟨pick p.package (-1), pick p.core (-1)⟩

/-- What is still to be noted. -/
def pending (st : St) : List (Int × CoreID) := if 0 ≤ st.proc then [(st.proc, effective st.proc st.id)] else []

theorem flush_pending {st : St} {fs : List (Int × CoreID)} (h : Inv st fs) :
    ∃ st', flush st = some st' ∧ Inv st' (fs ++ pending st) ∧ st'.proc = -1 ∧ st'.id = ⟨-1, -1⟩ := by
  unfold pending
  split
  · rename_i hp; exact flush_inv h hp
  · rename_i hp; rw [List.append_nil]; exact flush_none h hp

theorem collect_describes {ls : List (List Byte)} {ps : List Proc} (h : Describes ls ps) : ∀ (st : St)
    (fs : List (Int × CoreID)), Inv st fs →
    ∃ st', collect st ls = some st' ∧ Inv st' (fs ++ pending st ++ ps.map fun p => ((p.number : Int), idOf p)) := by
  induction h with
  | nil =>
    intro st fs hi
    obtain ⟨st', h1, h2, _⟩ := flush_pending hi
    exact ⟨st', h1, by simpa using h2⟩
  | @proc l f ls n p c ps hl hf _ ih =>
    intro st fs hi
    obtain ⟨st', h1, h2, h3, h4⟩ := flush_pending hi
    have e : collect st (l :: f ++ ls) = collect { st' with proc := (n : Int), id := ⟨pick p (-1), pick c (-1)⟩ } ls := by
      rw [List.cons_append]
      conv => lhs; unfold collect
      rw [read_processor hl]
      dsimp only [step]
      rw [h1]
      dsimp only [Option.map]
      rw [collect_fields hf]
      dsimp only
      rw [h4]
    obtain ⟨st2, g1, g2⟩ := ih { st' with proc := (n : Int), id := ⟨pick p (-1), pick c (-1)⟩ } (fs ++ pending st) h2
    refine ⟨st2, e.trans g1, ?_⟩
    have hp : pending { st' with proc := (n : Int), id := ⟨pick p (-1), pick c (-1)⟩ } = [((n : Int), idOf ⟨n, p, c⟩)] :=
      if_pos (by dsimp only; omega)
    rw [hp] at g2
    simpa using g2

theorem collect_other {pre : List (List Byte)} (h : ∀ l ∈ pre, OtherLine l) (st : St) (ls : List (List Byte)) :
    collect st (pre ++ ls) = collect st ls := by
  induction pre with
  | nil => rfl
  | cons l pre ih =>
    rw [List.cons_append]
    conv => lhs; unfold collect
    rw [read_other (h l (List.mem_cons_self ..))]
    exact ih fun x hx => h x (List.mem_cons_of_mem _ hx)

/-- The state in the beginning. -/
def start : St := ⟨[], 0, -1, ⟨-1, -1⟩, []⟩

theorem start_inv : Inv start [] := ⟨rfl, rfl, rfl⟩

theorem affinity_of {text : List Byte} {st : St} {fs : List (Int × CoreID)} (h : collect start (lines text) = some st)
    (hi : Inv st fs) : affinity (some text) =
      some (if fs = [] then ⟨false, [[0]], 1⟩ else ⟨true, group Prod.snd Prod.fst fs, fs.length⟩) := by
  unfold affinity
  have h' : collect ⟨[], 0, -1, ⟨-1, -1⟩, []⟩ (lines text) = some st := h
  dsimp only
  rw [h']
  obtain ⟨h1, h2, _⟩ := hi
  dsimp only
  rw [h1, h2]
  cases fs with
  | nil => rfl
  | cons f fs => rfl

theorem pick_inj (a b : Option Nat) : pick a (-1) = pick b (-1) ↔ a = b := by
  cases a <;> cases b <;> simp [pick] <;> omega

theorem pick_neg (a : Option Nat) : pick a (-1) < 0 ↔ a = none := by
  cases a <;> simp [pick]

theorem idOf_known {p : Proc} (h : ¬ (p.package = none ∧ p.core = none)) :
    idOf p = ⟨pick p.package (-1), pick p.core (-1)⟩ := by
  unfold idOf effective
  rw [if_neg]
  dsimp only
  rw [pick_neg, pick_neg]
  exact h

theorem idOf_alone {p : Proc} (h : p.package = none ∧ p.core = none) : idOf p = ⟨0, p.number⟩ := by
  unfold idOf effective
  rw [if_pos]
  dsimp only
  rw [pick_neg, pick_neg]
  exact h

theorem id_name {ps : List Proc} (h : Alike ps) : ∀ a ∈ ps, ∀ b ∈ ps, idOf a = idOf b ↔ a.coreName = b.coreName := by
  intro a ha b hb
  rcases h with h | h
  · rw [idOf_alone (h a ha), idOf_alone (h b hb)]
    unfold Proc.coreName
    rw [if_pos (h a ha), if_pos (h b hb)]
    simp
    omega
  · rw [idOf_known (h a ha), idOf_known (h b hb)]
    unfold Proc.coreName
    rw [if_neg (h a ha), if_neg (h b hb)]
    simp [pick_inj]

theorem byCore_group {ps : List Proc} (h : Alike ps) :
    group Prod.snd Prod.fst (ps.map fun p => ((p.number : Int), idOf p)) = byCore ps := by
  rw [group_map]
  exact group_congr _ _ _ _ (id_name h)

theorem collect_any : ∀ (ls : List (List Byte)) (st : St) (fs : List (Int × CoreID)), Inv st fs →
    ((∃ l ∈ ls, readLine l = none) → collect st ls = none) ∧
    ((∀ l ∈ ls, readLine l ≠ none) → ∃ st' fs', collect st ls = some st' ∧ Inv st' fs') := by
  intro ls
  induction ls with
  | nil =>
    intro st fs hi
    obtain ⟨st', h1, h2, _⟩ := flush_pending hi
    exact ⟨fun ⟨l, hl, _⟩ => (by cases hl), fun _ => ⟨st', _, h1, h2⟩⟩
  | cons l ls ih =>
    intro st fs hi
    have hstep : ∀ e, ∃ st' fs', step st e = some st' ∧ Inv st' fs' := by
      intro e
      cases e with
      | processor v =>
        obtain ⟨st', h1, h2, _⟩ := flush_pending hi
        exact ⟨{ st' with proc := v }, _, by unfold step; rw [h1]; rfl, h2⟩
      | physical v => exact ⟨_, fs, rfl, hi⟩
      | core v => exact ⟨_, fs, rfl, hi⟩
      | other => exact ⟨_, fs, rfl, hi⟩
    unfold collect
    cases hr : readLine l with
    | none =>
      exact ⟨fun _ => rfl, fun h => absurd hr (h l (List.mem_cons_self ..))⟩
    | some e =>
      obtain ⟨st', fs', h1, h2⟩ := hstep e
      dsimp only
      rw [h1]
      obtain ⟨i1, i2⟩ := ih st' fs' h2
      refine ⟨fun ⟨x, hx, hn⟩ => ?_, fun h => i2 fun x hx => h x (List.mem_cons_of_mem _ hx)⟩
      rcases List.mem_cons.1 hx with hx | hx
      · subst hx; rw [hr] at hn; cases hn
      · exact i1 ⟨x, hx, hn⟩

end Verif.Cpu

import Verif.Names.Spec
import Verif.Esc.PropsB
/-!
# Names — lemmas on splitting and on single searches
-/
namespace Verif.Names
open Verif

/-! ## Splitting -/

theorem identByte_start (c : Byte) : Esc.identByte false true true c = true ↔ Spec.Start c := by
  have h : ∀ i : Fin 256, (Esc.identByte false true true (UInt8.ofNat i) = true ↔
      Spec.Start (UInt8.ofNat i)) := by decide +kernel
  have h := h ⟨c.toNat, c.toNat_lt⟩
  simpa using h

theorem identByte_part (c : Byte) : Esc.identByte false true false c = true ↔ Spec.Part c := by
  have h : ∀ i : Fin 256, (Esc.identByte false true false (UInt8.ofNat i) = true ↔
      Spec.Part (UInt8.ofNat i)) := by decide +kernel
  have h := h ⟨c.toNat, c.toNat_lt⟩
  simpa using h

theorem parse_valid (c rest : Name) (hc : Spec.Valid c)
    (hr : rest = [] ∨ ∃ t, rest = 46 :: t) :
    (Esc.parseIdentifier false true (c ++ rest)).2 = rest := by
  cases c with
  | nil => exact hc.elim
  | cons a as =>
    obtain ⟨ha, has⟩ := hc
    simp only [Esc.parseIdentifier, List.cons_append]
    unfold Esc.identLoop
    rw [if_pos ((identByte_start a).2 ha), Esc.identLoop_rest]
    simp only
    rw [List.dropWhile_append_of_pos (fun x hx => (identByte_part x).2 (has x hx))]
    rcases hr with rfl | ⟨t, rfl⟩
    · rfl
    · rw [List.dropWhile_cons_of_neg]
      decide

theorem parse_split (s : Name) :
    ∃ ident, s = ident ++ (Esc.parseIdentifier false true s).2 ∧ (ident = [] ∨ Spec.Valid ident) := by
  cases s with
  | nil => exact ⟨[], rfl, .inl rfl⟩
  | cons a as =>
    simp only [Esc.parseIdentifier]
    unfold Esc.identLoop
    by_cases h : Esc.identByte false true true a = true
    · rw [if_pos h, Esc.identLoop_rest]
      refine ⟨a :: as.takeWhile (Esc.identByte false true false), ?_, .inr ⟨(identByte_start a).1 h, ?_⟩⟩
      · simp only [List.cons_append, List.takeWhile_append_dropWhile]
      · intro d hd
        have h := List.all_takeWhile (p := Esc.identByte false true false) (l := as)
        exact (identByte_part d).1 (List.all_eq_true.1 h d hd)
    · rw [if_neg h]
      exact ⟨[], rfl, .inl rfl⟩

/-- The names that follow the first one. -/
def dotted (cs : List Name) : Name := cs.flatMap fun c => 46 :: c

theorem join_eq (c : Name) (cs : List Name) : Spec.join (c :: cs) = c ++ dotted cs := by
  induction cs generalizing c with
  | nil => simp [Spec.join, dotted]
  | cons d cs ih => rw [Spec.join, ih d]; simp [dotted]

theorem dotted_head (cs : List Name) : dotted cs = [] ∨ ∃ t, dotted cs = 46 :: t := by
  cases cs with
  | nil => exact .inl rfl
  | cons c cs => exact .inr ⟨c ++ dotted cs, by simp [dotted]⟩

theorem take_ident (ident rest : Name) :
    (ident ++ rest).take ((ident ++ rest).length - rest.length) = ident := by
  simp

theorem splitLoop_sound (n : Nat) : ∀ (start : Bool) (s : Name) (cs : List Name),
    splitLoop n start s = some cs →
    (∀ c ∈ cs, Spec.Valid c) ∧ (start = false → s = dotted cs) ∧ (start = true → s = Spec.join cs) := by
  induction n with
  | zero =>
    intro start s cs h
    cases s with
    | nil => simp [splitLoop] at h; subst h; simp [dotted, Spec.join]
    | cons a as => simp [splitLoop] at h
  | succ n ih =>
    intro start s cs h
    cases s with
    | nil => simp [splitLoop] at h; subst h; simp [dotted, Spec.join]
    | cons a as =>
      have key : ∀ s', (let rest := (Esc.parseIdentifier false true s').2
          let ident := s'.take (s'.length - rest.length)
          if ident = [] then none
          else match splitLoop n false rest with
            | none => none
            | some r => some (ident :: r)) = some cs →
          ∃ i r, cs = i :: r ∧ (∀ c ∈ i :: r, Spec.Valid c) ∧ s' = i ++ dotted r := by
        intro s' h
        obtain ⟨ident, e, hv⟩ := parse_split s'
        generalize (Esc.parseIdentifier false true s').2 = rest at h e
        subst e
        simp only [take_ident] at h
        split at h
        · exact absurd h (by simp)
        · rename_i hne
          split at h
          · exact absurd h (by simp)
          · rename_i r hr
            obtain ⟨h1, h2, _⟩ := ih false rest r hr
            refine ⟨ident, r, (Option.some.inj h).symm, ?_, by rw [h2 rfl]⟩
            intro c hc
            rcases List.mem_cons.1 hc with rfl | hc
            · exact hv.resolve_left hne
            · exact h1 c hc
      unfold splitLoop at h
      cases start with
      | true =>
        obtain ⟨i, r, rfl, hv, e⟩ := key (a :: as) h
        exact ⟨hv, by simp, fun _ => by rw [join_eq, e]⟩
      | false =>
        by_cases ha : a = 46
        · subst ha
          obtain ⟨i, r, rfl, hv, e⟩ := key as h
          exact ⟨hv, fun _ => by rw [e]; simp [dotted], by simp⟩
        · simp [ha] at h

theorem splitLoop_complete (cs : List Name) : ∀ (n : Nat), (∀ c ∈ cs, Spec.Valid c) →
    (dotted cs).length ≤ n → splitLoop n false (dotted cs) = some cs := by
  induction cs with
  | nil => intro n _ _; cases n <;> rfl
  | cons c cs ih =>
    intro n hv hn
    have e : dotted (c :: cs) = 46 :: (c ++ dotted cs) := by simp [dotted]
    rw [e] at hn ⊢
    cases n with
    | zero => simp at hn
    | succ n =>
      have hc := hv c (by simp)
      have h1 := parse_valid c (dotted cs) hc (dotted_head cs)
      have hne : c ≠ [] := by intro h; subst h; exact hc
      unfold splitLoop
      simp only [Bool.false_eq_true, if_false, if_true]
      rw [h1, take_ident, if_neg hne, ih n (fun d hd => hv d (by simp [hd])) (by simp at hn; omega)]

theorem splitLoop_true (c : Name) (cs : List Name) (n : Nat) (hv : ∀ d ∈ c :: cs, Spec.Valid d)
    (hn : (Spec.join (c :: cs)).length ≤ n) :
    splitLoop n true (Spec.join (c :: cs)) = some (c :: cs) := by
  have hc := hv c (by simp)
  have h1 := parse_valid c (dotted cs) hc (dotted_head cs)
  have hne : c ≠ [] := by intro h; subst h; exact hc
  rw [join_eq] at hn ⊢
  cases c with
  | nil => exact absurd rfl hne
  | cons a as =>
    cases n with
    | zero => simp at hn
    | succ n =>
      rw [List.cons_append] at h1 ⊢
      unfold splitLoop
      simp only [if_true]
      rw [h1, ← List.cons_append, take_ident, if_neg hne,
        splitLoop_complete cs n (fun d hd => hv d (by simp [hd]))
          (by simp at hn; omega)]

theorem splitName_iff (text : Name) (cs : List Name) (ms : List Msg) :
    splitName text = (some cs, ms) ↔ ms = [] ∧ Spec.Text cs text := by
  unfold splitName
  constructor
  · intro h
    split at h
    · simp at h
    · simp at h
    · rename_i c cs' hs
      simp only [Prod.mk.injEq, Option.some.injEq] at h
      obtain ⟨rfl, rfl⟩ := h
      obtain ⟨h1, _, h3⟩ := splitLoop_sound _ _ _ _ hs
      exact ⟨rfl, by simp, h1, h3 rfl⟩
  · rintro ⟨rfl, h1, h2, rfl⟩
    cases cs with
    | nil => exact absurd rfl h1
    | cons c cs => rw [splitLoop_true c cs _ h2 (Nat.le_refl _)]

theorem splitName_none (text : Name) (ms : List Msg) :
    splitName text = (none, ms) ↔ ms = [.invalid] ∧ ∀ cs, ¬ Spec.Text cs text := by
  constructor
  · intro h
    refine ⟨?_, fun cs hc => ?_⟩
    · unfold splitName at h
      split at h <;> simp at h <;> exact h.symm
    · rw [(splitName_iff text cs []).2 ⟨rfl, hc⟩] at h
      simp at h
  · rintro ⟨rfl, h⟩
    rcases hs : splitName text with ⟨o, ms⟩
    cases o with
    | some cs => exact absurd ((splitName_iff text cs ms).1 hs).2 (h cs)
    | none =>
      unfold splitName at hs
      split at hs <;> simp at hs <;> simp [hs]

theorem text_unique {cs ds : List Name} {text : Name} (h : Spec.Text cs text) (k : Spec.Text ds text) :
    cs = ds := by
  have h1 := (splitName_iff text cs []).2 ⟨rfl, h⟩
  rw [(splitName_iff text ds []).2 ⟨rfl, k⟩] at h1
  simpa using h1.symm

/-! ## Searches -/

theorem foldl_pick {α : Type} (f : Nat → Option α) (l : List Nat) (acc : Option α × Bool) :
    l.foldl (pick f) acc =
      match acc.1, l.filterMap f with
      | none, [] => acc
      | none, [x] => (some x, acc.2)
      | none, x :: _ :: _ => (some x, true)
      | some _, [] => acc
      | some y, _ :: _ => (some y, true) := by
  induction l generalizing acc with
  | nil => cases acc with | mk a b => cases a <;> rfl
  | cons r l ih =>
    rw [List.foldl_cons, ih, List.filterMap_cons]
    cases acc with | mk a b =>
    cases h : f r with
    | none => simp [pick, h]
    | some x =>
      cases a with
      | none => simp only [pick, h]; cases l.filterMap f <;> rfl
      | some y => simp only [pick, h]; cases l.filterMap f <;> rfl

theorem filterMap_one {α : Type} (f : Nat → Option α) (l : List Nat) (hl : l.Nodup) (x : α) :
    l.filterMap f = [x] ↔ ∃ r ∈ l, f r = some x ∧ ∀ q ∈ l, f q ≠ none → q = r := by
  constructor
  · intro h
    have hx : x ∈ l.filterMap f := by rw [h]; simp
    obtain ⟨r, hr, hfr⟩ := List.mem_filterMap.1 hx
    refine ⟨r, hr, hfr, ?_⟩
    clear hx
    induction l with
    | nil => simp at hr
    | cons a l ih =>
      rw [List.nodup_cons] at hl
      rw [List.filterMap_cons] at h
      have none_of : l.filterMap f = [] → ∀ q ∈ l, f q = none := by
        intro h q hq; exact List.filterMap_eq_nil_iff.1 h q hq
      cases hfa : f a with
      | none =>
        rw [hfa] at h
        have hra : r ∈ l := by
          rcases List.mem_cons.1 hr with rfl | h'
          · rw [hfa] at hfr; cases hfr
          · exact h'
        intro q hq hne
        rcases List.mem_cons.1 hq with rfl | hq
        · exact absurd hfa hne
        · exact ih hl.2 h hra q hq hne
      | some y =>
        rw [hfa] at h
        simp only [List.cons.injEq] at h
        have hn := none_of h.2
        have hra : r = a := by
          rcases List.mem_cons.1 hr with rfl | h'
          · rfl
          · rw [hn r h'] at hfr; cases hfr
        intro q hq hne
        rcases List.mem_cons.1 hq with rfl | hq
        · exact hra.symm
        · exact absurd (hn q hq) hne
  · rintro ⟨r, hr, hfr, hu⟩
    induction l with
    | nil => simp at hr
    | cons a l ih =>
      rw [List.nodup_cons] at hl
      rw [List.filterMap_cons]
      by_cases har : a = r
      · subst har
        rw [hfr]
        have : l.filterMap f = [] := by
          rw [List.filterMap_eq_nil_iff]
          intro q hq
          cases hq' : f q with
          | none => rfl
          | some y =>
            have := hu q (by simp [hq]) (by simp [hq'])
            subst this; exact absurd hq hl.1
        simp [this]
      · have hfa : f a = none := by
          cases hq' : f a with
          | none => rfl
          | some y => exact absurd (hu a (by simp) (by simp [hq'])) har
        rw [hfa]
        rcases List.mem_cons.1 hr with rfl | hr
        · exact absurd rfl har
        · exact ih hl.2 hr (fun q hq => hu q (by simp [hq]))

theorem decideOn_cases {α : Type} (f : Nat → Option α) (l : List Nat) :
    decideOn (l.foldl (pick f) (none, false)) =
      match l.filterMap f with
      | [] => (none, [.cantFind])
      | [x] => (some x, [])
      | _ :: _ :: _ => (none, [.multiple]) := by
  rw [foldl_pick]
  generalize l.filterMap f = m
  match m with
  | [] => rfl
  | [x] => rfl
  | x :: y :: m => rfl

theorem decideOn_iff {α : Type} (f : Nat → Option α) (l : List Nat) (hl : l.Nodup) (x : α)
    (ms : List Msg) :
    decideOn (l.foldl (pick f) (none, false)) = (some x, ms) ↔
      ms = [] ∧ ∃ r ∈ l, f r = some x ∧ ∀ q ∈ l, f q ≠ none → q = r := by
  rw [decideOn_cases, ← filterMap_one f l hl x]
  generalize l.filterMap f = m
  match m with
  | [] => simp
  | [y] => simp [eq_comm, and_comm]
  | y :: z :: m => simp

theorem findRepo_iff {W : Registry} (hW : Spec.Good W) (n : Name) (r : Nat) :
    findRepo W n = some r ↔ Spec.Called W r n := by
  unfold findRepo
  constructor
  · intro h
    obtain ⟨hlt, hn, _⟩ := List.findIdx?_eq_some_iff_getElem.1 h
    exact ⟨W[r], List.getElem?_eq_getElem hlt, by simpa using hn⟩
  · intro h
    cases hf : W.findIdx? (fun r => r.name == n) with
    | none =>
      obtain ⟨R, hR, hn⟩ := h
      have := List.findIdx?_eq_none_iff.1 hf R (List.mem_of_getElem? hR)
      simp [hn] at this
    | some q =>
      obtain ⟨hlt, hn, _⟩ := List.findIdx?_eq_some_iff_getElem.1 hf
      have := hW.names r q n h ⟨W[q], List.getElem?_eq_getElem hlt, by simpa using hn⟩
      rw [this]

theorem findRepo_none {W : Registry} (hW : Spec.Good W) (n : Name) :
    findRepo W n = none ↔ ∀ r, ¬ Spec.Called W r n := by
  constructor
  · intro h r hr
    rw [(findRepo_iff hW n r).2 hr] at h
    cases h
  · intro h
    cases hf : findRepo W n with
    | none => rfl
    | some r => exact absurd ((findRepo_iff hW n r).1 hf) (h r)

theorem targetImm_iff {W : Registry} (r : Nat) (n : Name) (t : Target) :
    targetImm W r n = some t ↔ t = (r, n) ∧ Spec.HasTarget W r n := by
  unfold targetImm Spec.HasTarget
  cases h : W[r]? with
  | none => simp
  | some R =>
    by_cases hn : n ∈ R.targets
    · simp [hn, eq_comm]
    · simp [hn]

theorem targetImm_ne {W : Registry} (r : Nat) (n : Name) :
    targetImm W r n ≠ none ↔ Spec.HasTarget W r n := by
  constructor
  · intro h
    obtain ⟨t, ht⟩ := Option.ne_none_iff_exists'.1 h
    exact ((targetImm_iff r n t).1 ht).2
  · intro h
    rw [(targetImm_iff r n (r, n)).2 ⟨rfl, h⟩]
    simp

theorem externImm_some {W : Registry} {r : Nat} {n : Name} {e : Ext} (h : externImm W r n = some e) :
    e.1 = r ∧ Spec.Extern W e n := by
  unfold externImm at h
  cases hR : W[r]? with
  | none => rw [hR] at h; cases h
  | some R =>
    rw [hR] at h
    simp only [Option.map_eq_some_iff] at h
    obtain ⟨i, hi, rfl⟩ := h
    obtain ⟨hlt, hn, _⟩ := List.findIdx?_eq_some_iff_getElem.1 hi
    exact ⟨rfl, R, hR, by rw [List.getElem?_eq_getElem hlt]; simpa using hn⟩

theorem externImm_ne {W : Registry} (r : Nat) (n : Name) :
    externImm W r n ≠ none ↔ ∃ e : Ext, e.1 = r ∧ Spec.Extern W e n := by
  constructor
  · intro h
    obtain ⟨e, he⟩ := Option.ne_none_iff_exists'.1 h
    exact ⟨e, externImm_some he⟩
  · rintro ⟨e, rfl, R, hR, hn⟩
    unfold externImm
    rw [hR]
    simp only [ne_eq, Option.map_eq_none_iff]
    intro h
    have := List.findIdx?_eq_none_iff.1 h n (List.mem_of_getElem? hn)
    simp at this

theorem externImm_iff {W : Registry} (hd : Spec.ExternsDiffer W) (r : Nat) (n : Name) (e : Ext) :
    externImm W r n = some e ↔ e.1 = r ∧ Spec.Extern W e n := by
  constructor
  · exact externImm_some
  · rintro ⟨rfl, he⟩
    obtain ⟨f, hf⟩ := Option.ne_none_iff_exists'.1 ((externImm_ne e.1 n).2 ⟨e, rfl, he⟩)
    obtain ⟨h1, h2⟩ := externImm_some hf
    rw [hf, hd f e n h2 he h1]

theorem providerImm_some {W : Registry} {r : Nat} {e : Ext} {n : Name} {p : Nat × Nat}
    (h : providerImm W r e n = some p) : p.1 = r ∧ Spec.Provides W p e n := by
  unfold providerImm at h
  cases hR : W[r]? with
  | none => rw [hR] at h; cases h
  | some R =>
    rw [hR] at h
    simp only [Option.map_eq_some_iff] at h
    obtain ⟨i, hi, rfl⟩ := h
    obtain ⟨hlt, hn, _⟩ := List.findIdx?_eq_some_iff_getElem.1 hi
    refine ⟨rfl, R, hR, ?_⟩
    rw [List.getElem?_eq_getElem hlt]
    simp only [Bool.and_eq_true, beq_iff_eq] at hn
    rw [← hn.1, ← hn.2]

theorem providerImm_ne {W : Registry} (r : Nat) (e : Ext) (n : Name) :
    providerImm W r e n ≠ none ↔ ∃ p : Nat × Nat, p.1 = r ∧ Spec.Provides W p e n := by
  constructor
  · intro h
    obtain ⟨p, hp⟩ := Option.ne_none_iff_exists'.1 h
    exact ⟨p, providerImm_some hp⟩
  · rintro ⟨p, rfl, R, hR, hn⟩
    unfold providerImm
    rw [hR]
    simp only [ne_eq, Option.map_eq_none_iff]
    intro h
    have := List.findIdx?_eq_none_iff.1 h _ (List.mem_of_getElem? hn)
    simp at this

theorem providerImm_iff {W : Registry} (hd : Spec.ProvidersDiffer W) (r : Nat) (e : Ext) (n : Name)
    (p : Nat × Nat) : providerImm W r e n = some p ↔ p.1 = r ∧ Spec.Provides W p e n := by
  constructor
  · exact providerImm_some
  · rintro ⟨rfl, he⟩
    obtain ⟨f, hf⟩ := Option.ne_none_iff_exists'.1 ((providerImm_ne p.1 e n).2 ⟨p, rfl, he⟩)
    obtain ⟨h1, h2⟩ := providerImm_some hf
    rw [hf, hd f p e n h2 he h1]

theorem lt_of_hasTarget {W : Registry} {r : Nat} {n : Name} (h : Spec.HasTarget W r n) :
    r ∈ allRepos W := by
  obtain ⟨R, hR, _⟩ := h
  exact List.mem_range.2 (List.getElem?_eq_some_iff.1 hR).1

theorem lt_of_extern {W : Registry} {e : Ext} {n : Name} (h : Spec.Extern W e n) :
    e.1 ∈ allRepos W := by
  obtain ⟨R, hR, _⟩ := h
  exact List.mem_range.2 (List.getElem?_eq_some_iff.1 hR).1

theorem lt_of_provides {W : Registry} {p : Nat × Nat} {e : Ext} {n : Name} (h : Spec.Provides W p e n) :
    p.1 ∈ allRepos W := by
  obtain ⟨R, hR, _⟩ := h
  exact List.mem_range.2 (List.getElem?_eq_some_iff.1 hR).1

theorem allRepos_nodup (W : Registry) : (allRepos W).Nodup := List.nodup_range

end Verif.Names

import Verif.Markdown.LemmasTotal

/-!
# Unambiguous text is read as it was meant
-/

namespace Verif.Markdown

open Verif Verif.Markdown.Spec

/-- `DelimOf a ds es`: delimiters as they come out of unambiguous text for `es`. -/
inductive DelimOf : Bool → List Delim → List Inline → Prop where
  | nil {a} : DelimOf a [] []
  | text {t ds es} : DelimOf true ds es → DelimOf false (.raw t :: ds) (.text t :: es)
  | elem {a e ds es} : (∀ t, e ≠ .text t) → DelimOf false ds es → DelimOf a (.elem e :: ds) (e :: es)
  | emph {a star dc cs ds es} : DelimOf false dc cs → DelimOf false ds es →
      DelimOf a (.run star true false [runChar star] :: (dc ++
        .run star false true [runChar star] :: ds)) (.emph cs :: es)
  | strong {a star dc cs ds es} : DelimOf false dc cs → DelimOf false ds es →
      DelimOf a (.run star true false [runChar star, runChar star] :: (dc ++
        .run star false true [runChar star, runChar star] :: ds)) (.strong cs :: es)

/-- The delimiters once emphasis has been found. -/
def fin : List Inline → List Delim
  | [] => []
  | .text t :: es => .raw t :: fin es
  | e :: es => .elem e :: fin es

theorem fin_length : ∀ es : List Inline, (fin es).length = es.length
  | [] => rfl
  | e :: es => by cases e <;> simp [fin, fin_length es]

theorem fin_elem {e : Inline} {es : List Inline} (h : ∀ t, e ≠ .text t) :
    fin (e :: es) = .elem e :: fin es := by
  cases e with
  | text t => exact absurd rfl (h t)
  | _ => rfl

theorem DelimOf.noOpen {a : Bool} {ds : List Delim} {es : List Inline} (h : DelimOf a ds es) :
    ∀ t, Delim.openLink t ∉ ds := by
  induction h <;> simp_all

theorem convertLoop_fin {a : Bool} {ds : List Delim} {es : List Inline} (h : DelimOf a ds es) :
    ∀ acc : List Inline, (a = false → ∀ t acc', acc ≠ .text t :: acc') →
      convertLoop acc (fin es) = acc.reverse ++ es := by
  induction h with
  | nil => intro acc _; simp [fin, convertLoop]
  | text h ih =>
    rename_i t ds es
    intro acc hacc
    have h1 := ih (.text t :: acc) (by simp)
    rw [fin]
    cases acc with
    | nil => rw [convertLoop.eq_def]; dsimp only; simpa [Delim.text] using h1
    | cons e acc =>
      cases e with
      | text t' => exact absurd rfl (hacc rfl t' acc)
      | _ => rw [convertLoop.eq_def]; dsimp only; simpa [Delim.text] using h1
  | elem he h ih =>
    rename_i a e ds es
    intro acc hacc
    rw [fin_elem he, convertLoop, ih (e :: acc) (by
      intro _ t acc' h; simp only [List.cons.injEq] at h; exact he t h.1)]
    simp
  | emph h1 h2 ih1 ih2 =>
    intro acc hacc
    rw [fin_elem (by simp), convertLoop, ih2 _ (by simp)]
    simp
  | strong h1 h2 ih1 ih2 =>
    intro acc hacc
    rw [fin_elem (by simp), convertLoop, ih2 _ (by simp)]
    simp

theorem convert_fin {ds : List Delim} {es : List Inline} (h : DelimOf false ds es) :
    convertToInlineElems (fin es) = es := by
  unfold convertToInlineElems
  rw [convertLoop_fin h [] (by simp)]; rfl

theorem fin_noRun : ∀ (es : List Inline) (s l r : Bool) (t : List Byte), Delim.run s l r t ∉ fin es
  | [], _, _, _, _ => by simp [fin]
  | e :: es, s, l, r, t => by
    have := fin_noRun es s l r t
    cases e <;> simp [fin, this]

/-- Looking for the opener goes past finished delimiters. -/
theorem findOpener_fin (pre : List Delim) (star r : Bool) (t : List Byte) (post : List Delim) :
    ∀ (n : Nat) (mid : List Delim), n ≤ mid.length → (∀ s l r t, Delim.run s l r t ∉ mid) →
      findOpener (pre ++ .run star true r t :: (mid ++ post)) star 0 (pre.length + 1 + n) =
        some pre.length
  | 0, mid, _, _ => by
    rw [Nat.add_zero, findOpener, if_pos (by omega), if_pos]
    rw [List.getElem?_append_right (Nat.le_refl _), Nat.sub_self]
    simp [isOpener]
  | n + 1, mid, hn, hm => by
    rw [← Nat.add_assoc, findOpener, if_pos (by omega), if_neg]
    · exact findOpener_fin pre star r t post n mid (by omega) hm
    · intro h
      obtain ⟨r', t', e⟩ := isOpener_some h
      rw [List.getElem?_append_right (by omega), show pre.length + 1 + n - pre.length = n + 1 by omega,
        List.getElem?_cons_succ, List.getElem?_append_left (by omega)] at e
      exact hm _ _ _ _ (List.mem_of_getElem? e)

theorem processLoop_skip {ds : List Delim} {pos so uo : Nat} {d : Delim} (h : ds[pos]? = some d)
    (hd : ∀ s l t, d ≠ .run s l true t) :
    processLoop ds pos so uo = processLoop ds (pos + 1) so uo := by
  rw [processLoop.eq_def]
  split
  · rename_i e; rw [h] at e; cases e
  · rename_i e; rw [h] at e; cases e; exact absurd rfl (hd _ _ _)
  · rfl

theorem processLoop_close {pre mid post : List Delim} {star : Bool} {t : List Byte}
    (ht : t = [runChar star] ∨ t = [runChar star, runChar star])
    (hm : ∀ s l r t, Delim.run s l r t ∉ mid) :
    processLoop (pre ++ .run star true false t :: (mid ++ .run star false true t :: post))
      (pre.length + 1 + mid.length) 0 0 =
    processLoop (pre ++ .elem (if t.length = 2 then .strong (convertToInlineElems mid)
      else .emph (convertToInlineElems mid)) :: post) (pre.length + 1) 0 0 := by
  have hp : (pre ++ Delim.run star true false t :: (mid ++ .run star false true t :: post))[
      pre.length + 1 + mid.length]? = some (.run star false true t) := by
    rw [List.getElem?_append_right (by omega),
      show pre.length + 1 + mid.length - pre.length = mid.length + 1 by omega,
      List.getElem?_cons_succ, List.getElem?_append_right (Nat.le_refl _), Nat.sub_self]
    rfl
  have hd : (pre ++ Delim.run star true false t :: (mid ++ .run star false true t :: post))[
      pre.length]? = some (.run star true false t) := by
    rw [List.getElem?_append_right (Nat.le_refl _), Nat.sub_self]; rfl
  have hf := findOpener_fin pre star false t (.run star false true t :: post) mid.length mid
    (Nat.le_refl _) hm
  have hc : closeSpan (pre ++ Delim.run star true false t :: (mid ++ .run star false true t :: post))
      pre.length (pre.length + 1 + mid.length) (.run star true false t) (.run star false true t) =
      some (pre ++ .elem (if t.length = 2 then .strong (convertToInlineElems mid)
        else .emph (convertToInlineElems mid)) :: post, pre.length) := by
    rw [closeSpan_eq]
    rcases ht with rfl | rfl <;> simp [Delim.text, Delim.shorten, keep]
  rw [processLoop.eq_def]
  split
  · rename_i e; rw [hp] at e; cases e
  · rename_i e; rw [hp] at e; cases e
    split
    · rename_i e
      rw [show (if star = true then 0 else 0) = 0 by simp, hf] at e
      cases e
      split
      · rename_i e; rw [hd] at e; cases e
        split
        · rename_i e; rw [hc] at e; cases e
        · rename_i e; rw [hc] at e; cases e; simp
      · rename_i e; exact absurd hd (e _ _ _ _)
    · rename_i e
      rw [show (if star = true then 0 else 0) = 0 by simp, hf] at e; cases e
  · rename_i e; rename_i e'; rw [hp] at e; cases e; exact absurd rfl (e' _ _ _)

theorem processLoop_fin {a : Bool} {ds : List Delim} {es : List Inline} (h : DelimOf a ds es) :
    ∀ pre post : List Delim, processLoop (pre ++ (ds ++ post)) pre.length 0 0 =
      processLoop (pre ++ (fin es ++ post)) (pre.length + (fin es).length) 0 0 := by
  have hget : ∀ (pre : List Delim) (d : Delim) (l : List Delim), (pre ++ d :: l)[pre.length]? = some d := by
    intro pre d l; rw [List.getElem?_append_right (Nat.le_refl _), Nat.sub_self]; rfl
  have hstep : ∀ (d : Delim) (ds : List Delim) (es : List Inline), (∀ s l t, d ≠ .run s l true t) →
      (∀ pre post : List Delim, processLoop (pre ++ (ds ++ post)) pre.length 0 0 =
        processLoop (pre ++ (fin es ++ post)) (pre.length + (fin es).length) 0 0) →
      ∀ pre post : List Delim, processLoop (pre ++ ((d :: ds) ++ post)) pre.length 0 0 =
        processLoop (pre ++ ((d :: fin es) ++ post)) (pre.length + (d :: fin es).length) 0 0 := by
    intro d ds es hd ih pre post
    rw [List.cons_append, processLoop_skip (hget _ _ _) hd]
    have := ih (pre ++ [d]) post
    simp only [List.append_assoc, List.cons_append, List.nil_append, List.length_append,
      List.length_cons, List.length_nil] at this
    rw [Nat.zero_add] at this
    rw [this]
    simp only [List.cons_append, List.length_cons]
    congr 1
    omega
  have hspan : ∀ (star : Bool) (t : List Byte) (dc : List Delim) (cs : List Inline) (ds : List Delim)
      (es : List Inline), (t = [runChar star] ∨ t = [runChar star, runChar star]) →
      DelimOf false dc cs →
      (∀ pre post : List Delim, processLoop (pre ++ (dc ++ post)) pre.length 0 0 =
        processLoop (pre ++ (fin cs ++ post)) (pre.length + (fin cs).length) 0 0) →
      (∀ pre post : List Delim, processLoop (pre ++ (ds ++ post)) pre.length 0 0 =
        processLoop (pre ++ (fin es ++ post)) (pre.length + (fin es).length) 0 0) →
      ∀ pre post : List Delim, processLoop (pre ++ ((.run star true false t :: (dc ++
          .run star false true t :: ds)) ++ post)) pre.length 0 0 =
        processLoop (pre ++ ((Delim.elem (if t.length = 2 then .strong cs else .emph cs) :: fin es) ++
          post)) (pre.length + (fin es).length + 1) 0 0 := by
    intro star t dc cs ds es ht hdc ihc ihs pre post
    rw [List.cons_append, processLoop_skip (hget _ _ _) (by simp)]
    have h1 := ihc (pre ++ [.run star true false t]) (.run star false true t :: (ds ++ post))
    simp only [List.append_assoc, List.cons_append, List.nil_append, List.length_append,
      List.length_cons, List.length_nil, Nat.zero_add] at h1 ⊢
    rw [h1, processLoop_close ht (fin_noRun cs), convert_fin hdc]
    have h2 := ihs (pre ++ [.elem (if t.length = 2 then .strong cs else .emph cs)]) post
    simp only [List.append_assoc, List.cons_append, List.nil_append, List.length_append,
      List.length_cons, List.length_nil, Nat.zero_add] at h2
    rw [h2]
    congr 1
    omega
  induction h with
  | nil => intro pre post; simp [fin]
  | text h ih => exact hstep _ _ _ (by simp) ih
  | elem he h ih => rw [fin_elem he]; exact hstep _ _ _ (by simp) ih
  | emph h1 h2 ih1 ih2 =>
    rename_i a star dc cs ds es
    intro pre post
    have := hspan star [runChar star] _ _ _ _ (Or.inl rfl) h1 ih1 ih2 pre post
    rw [this, fin_elem (by simp)]
    rfl
  | strong h1 h2 ih1 ih2 =>
    rename_i a star dc cs ds es
    intro pre post
    have := hspan star [runChar star, runChar star] _ _ _ _ (Or.inr rfl) h1 ih1 ih2 pre post
    rw [this, fin_elem (by simp)]
    rfl

theorem processEmphasis_fin {ds : List Delim} {es : List Inline} (h : DelimOf false ds es) :
    processEmphasis ds = some es := by
  unfold processEmphasis
  have := processLoop_fin h [] []
  simp only [List.nil_append, List.append_nil, List.length_nil, Nat.zero_add] at this
  rw [this, processLoop.eq_def]
  split
  · rw [Option.map_some, convert_fin h]
  · rename_i e; rw [List.getElem?_eq_none (Nat.le_refl _)] at e; cases e
  · rename_i e; rw [List.getElem?_eq_none (Nat.le_refl _)] at e; cases e

theorem lastOr_cons (p : Option Byte) (x : Sym) (s : List Sym) : lastOr p (x :: s) = lastOr x s := by
  unfold lastOr
  cases s with
  | nil => rfl
  | cons y s =>
    rw [List.getLast?_cons_cons]
    cases h : (y :: s).getLast? with
    | none => simp at h
    | some z => rfl

theorem lastOr_append (p : Option Byte) (a s : List Sym) :
    lastOr p (a ++ s) = lastOr (lastOr p a) s := by
  induction a generalizing p with
  | nil => rfl
  | cons x a ih => rw [List.cons_append, lastOr_cons, ih, lastOr_cons]

theorem lastOr_ne (p q : Option Byte) {s : List Sym} (h : s ≠ []) : lastOr p s = lastOr q s := by
  cases s with
  | nil => exact absurd rfl h
  | cons x s => rw [lastOr_cons, lastOr_cons]

theorem lastOr_map (p : Option Byte) {t : List Byte} (h : t ≠ []) :
    lastOr p (t.map some) = t.getLast? := by
  unfold lastOr
  rw [List.getLast?_map]
  cases hl : t.getLast? with
  | none => simp at hl; exact absurd hl h
  | some c => rfl

theorem lastOr_replicate (p : Option Byte) (c : Byte) : ∀ {k : Nat}, 0 < k →
    lastOr p (List.replicate k (some c)) = some c
  | k + 1, _ => by rw [List.replicate_succ', lastOr_append]; rfl

theorem head_firstOr {s rest : List Sym} {n : Option Byte} (h : rest.head?.join = n) :
    (s ++ rest).head?.join = firstOr s n := by
  cases s with
  | nil => exact h
  | cons x s => rfl

theorem runLen_replicate (c : Byte) {s : List Sym} (h : s.head?.join ≠ some c) :
    ∀ n, runLen c (List.replicate n (some c) ++ s) = n
  | 0 => by
    cases s with
    | nil => rfl
    | cons x s =>
      cases x with
      | none => rfl
      | some d =>
        have : d ≠ c := by intro e; exact h (by rw [e]; rfl)
        simp [runLen, this]
  | n + 1 => by
    rw [List.replicate_succ, List.cons_append, runLen, if_pos rfl, runLen_replicate c h n]

theorem runLen_zero {c : Byte} {s : List Sym} (h : s.head?.join ≠ some c) : runLen c s = 0 :=
  runLen_replicate c h 0

theorem expandLoop_plain : ∀ {t : List Byte} {ds : List Delim} {pending : List Byte}
    {p : Option Byte} {s : List Sym}, (∀ c ∈ t, Plain c) →
    expandLoop ds pending p (t.map some ++ s) =
      expandLoop ds (pending ++ t) (lastOr p (t.map some)) s
  | [], ds, pending, p, s, _ => by rw [List.append_nil]; rfl
  | c :: t, ds, pending, p, s, h => by
    obtain ⟨h1, h2, h3, h4, h5⟩ := h c (by simp)
    rw [List.map_cons, List.cons_append, expandLoop.eq_def]
    dsimp only
    rw [if_neg h1, if_neg h2, if_neg h3, if_neg h4, if_neg h5,
      expandLoop_plain fun x hx => h x (List.mem_cons_of_mem _ hx), lastOr_cons, List.append_assoc]
    rfl

theorem isAscPunc_iff (c : Byte) : isAscPunc c = true ↔ c ∈ punctuation := by
  revert c; apply forall_byte; decide +kernel

theorem makeRun_open {star : Bool} {p n : Option Byte} {t : List Byte} (h : Outside p n) :
    makeRun star p n t = .run star true false t := by
  obtain ⟨c, rfl, hc, h⟩ := h
  have hw : ∀ c : Byte, Str.isWhite c = true → isAscPunc c = false := by
    apply forall_byte; decide +kernel
  unfold makeRun
  rcases h with h | ⟨d, rfl, hd, hn⟩
  · cases p with
    | none => simp [hc]
    | some d =>
      have h' : Str.isWhite d = true := h
      simp [hc, h']
  · rw [← isAscPunc_iff] at hd hn
    have hd' : Str.isWhite d = false := by
      cases hx : Str.isWhite d with
      | false => rfl
      | true => rw [hw d hx] at hd; cases hd
    have hn' : isAscPunc c = false := by simpa using hn
    simp [hc, hd, hd', hn']

theorem makeRun_close {star : Bool} {p n : Option Byte} {t : List Byte} (h : Outside n p) :
    makeRun star p n t = .run star false true t := by
  obtain ⟨c, rfl, hc, h⟩ := h
  have hw : ∀ c : Byte, Str.isWhite c = true → isAscPunc c = false := by
    apply forall_byte; decide +kernel
  unfold makeRun
  rcases h with h | ⟨d, rfl, hd, hn⟩
  · cases n with
    | none => simp [hc]
    | some d =>
      have h' : Str.isWhite d = true := h
      simp [hc, h']
  · rw [← isAscPunc_iff] at hd hn
    have hd' : Str.isWhite d = false := by
      cases hx : Str.isWhite d with
      | false => rfl
      | true => rw [hw d hx] at hd; cases hd
    have hn' : isAscPunc c = false := by simpa using hn
    simp [hc, hd, hd', hn']

/-- A run of stars or underscores. -/
theorem expandLoop_run {star : Bool} {k : Nat} {ds : List Delim} {pending : List Byte}
    {p : Option Byte} {s : List Sym} (h : s.head?.join ≠ some (runChar star)) :
    expandLoop ds pending p (List.replicate (k + 1) (some (runChar star)) ++ s) =
      expandLoop (flush ds pending ++ [makeRun star p s.head?.join
        (List.replicate (k + 1) (runChar star))]) [] (some (runChar star)) s := by
  have hl := runLen_replicate (runChar star) h k
  have hdr : (List.replicate k (some (runChar star)) ++ s).drop k = s := by
    rw [List.drop_append, List.drop_of_length_le (by simp)]; simp
  rw [List.replicate_succ, List.cons_append, expandLoop.eq_def]
  dsimp only
  cases star with
  | true =>
    have e : runChar true = 42 := rfl
    rw [e] at hl hdr ⊢
    rw [if_neg (by decide), if_pos rfl, hl, hdr]
  | false =>
    have e : runChar false = 95 := rfl
    rw [e] at hl hdr ⊢
    rw [if_neg (by decide), if_neg (by decide), if_pos rfl, hl, hdr]

theorem getCodeSpan_simple {k : Nat} {s : List Sym} (hk : 0 < k) (hs : s.head?.join ≠ some 96) :
    ∀ (m : Nat) (b : List Sym) (acc : List Byte), b.length ≤ m → some 96 ∉ b →
      (∀ x y, b ≠ x ++ none :: none :: y) → acc ++ b.map spaced ≠ [] →
      getCodeSpan k acc (b ++ (List.replicate k (some 96) ++ s)) =
        .ok (stripSpan (acc ++ b.map spaced)) s := by
  have hend : ∀ (acc : List Byte) (pre : List Sym) (v : Valid), acc ++ pre.map spaced ≠ [] →
      (pre = [] ∧ v = .sameLine ∨ pre = [none] ∧ v = .nextLine) →
      getCodeSpan k acc (pre ++ (List.replicate k (some 96) ++ s)) =
        .ok (stripSpan (acc ++ pre.map spaced)) s := by
    intro acc pre v hne hv
    obtain ⟨k', rfl⟩ : ∃ k', k = k' + 1 := ⟨k - 1, by omega⟩
    have hl := runLen_replicate 96 hs k'
    have hdr : (List.replicate k' (some 96) ++ s).drop k' = s := by
      rw [List.drop_append, List.drop_of_length_le (by simp)]; simp
    rw [List.replicate_succ, List.cons_append, getCodeSpan.eq_def]
    rcases hv with ⟨rfl, rfl⟩ | ⟨rfl, rfl⟩
    · simp only [List.nil_append, validIndex, List.map_nil, List.append_nil] at hne ⊢
      simp [hl, hdr, hne]
    · simp only [List.cons_append, List.nil_append, validIndex]
      simp [hl, hdr, spaced]
  intro m
  induction m with
  | zero =>
    intro b acc hb _ _ hne
    have : b = [] := by cases b with | nil => rfl | cons _ _ => simp at hb
    subst this
    exact hend acc [] .sameLine hne (Or.inl ⟨rfl, rfl⟩)
  | succ m ih =>
    intro b acc hb h96 hnn hne
    match b, hb, h96, hnn, hne with
    | [], _, _, _, hne => exact hend acc [] .sameLine hne (Or.inl ⟨rfl, rfl⟩)
    | some c :: b, hb, h96, hnn, hne =>
      have hc : c ≠ 96 := by intro e; subst e; simp at h96
      have := ih b (acc ++ [c]) (by simpa using hb) (by simp at h96; exact h96.2)
        (fun x y e => hnn (some c :: x) y (by rw [e]; rfl)) (by simp)
      rw [List.cons_append, getCodeSpan.eq_def]
      simp only [validIndex]
      rw [if_neg hc]
      simpa [spaced] using this
    | [none], _, _, _, hne => exact hend acc [none] .nextLine hne (Or.inr ⟨rfl, rfl⟩)
    | none :: none :: b, _, _, hnn, _ => exact absurd rfl (hnn [] b)
    | none :: some c :: b, hb, h96, hnn, hne =>
      have hc : c ≠ 96 := by intro e; subst e; simp at h96
      have := ih b (acc ++ [32] ++ [c]) (by simp at hb; omega) (by simp at h96; exact h96.2)
        (fun x y e => hnn (none :: some c :: x) y (by rw [e]; rfl)) (by simp)
      rw [List.cons_append, List.cons_append, getCodeSpan.eq_def]
      simp only [validIndex]
      rw [if_neg hc]
      simpa [spaced] using this

theorem destLoop_simple {s : List Sym} : ∀ (raw : List Byte) (n : Nat) (acc : List Byte),
    nesting n raw = some 0 → 92 ∉ raw → (∀ c ∈ raw, 32 < c.toNat) →
    destLoop n acc (raw.map some ++ some 41 :: s) = .ok (acc ++ raw, 0) (some 41 :: s)
  | [], n, acc, h, _, _ => by
    simp only [nesting, Option.some.injEq] at h
    subst h
    rw [List.map_nil, List.nil_append, destLoop.eq_def]
    simp
  | c :: raw, n, acc, h, h92, h32 => by
    have hc : c ≠ 92 := by intro e; subst e; simp at h92
    have h92' : 92 ∉ raw := fun hm => h92 (List.mem_cons_of_mem _ hm)
    have h32' : ∀ c ∈ raw, 32 < c.toNat := fun x hx => h32 x (List.mem_cons_of_mem _ hx)
    have hcc := h32 c (by simp)
    rw [nesting] at h
    rw [List.map_cons, List.cons_append, destLoop.eq_def]
    dsimp only
    rw [if_neg hc]
    by_cases h40 : c = 40
    · rw [if_pos h40] at h ⊢
      rw [destLoop_simple raw _ _ h h92' h32']; simp
    · rw [if_neg h40] at h ⊢
      by_cases h41 : c = 41
      · rw [if_pos h41] at h ⊢
        split at h
        · cases h
        · rw [if_pos (by omega), destLoop_simple raw _ _ h h92' h32']; simp
      · rw [if_neg h41] at h ⊢
        rw [if_neg (by omega), destLoop_simple raw _ _ h h92' h32']; simp

theorem parseLink_simple {raw : List Byte} {s : List Sym} (h : nesting 0 raw = some 0)
    (h92 : 92 ∉ raw) (h32 : ∀ c ∈ raw, 32 < c.toNat) :
    parseLinkDestination (raw.map some ++ some 41 :: s) = .ok raw s := by
  have hw : ∀ c : Byte, 32 < c.toNat → Str.isWhite c = false := by
    apply forall_byte; decide +kernel
  have h1 : skipLeading (raw.map some ++ some 41 :: s) = .ok () (raw.map some ++ some 41 :: s) := by
    cases raw with
    | nil =>
      rw [List.map_nil, List.nil_append, skipLeading.eq_def]
      simp [validIndex, hw 41 (by decide)]
    | cons c raw =>
      rw [List.map_cons, List.cons_append, skipLeading.eq_def]
      simp [validIndex, hw c (h32 c (by simp))]
  have h3 : skipTrailing (some 41 :: s) = .ok () s := by
    rw [skipTrailing.eq_def]
    simp [validIndex]
  unfold parseLinkDestination
  rw [h1]
  dsimp only
  rw [destLoop_simple raw 0 [] h h92 h32]
  dsimp only
  rw [if_neg (by simp), h3]
  rfl

theorem lastOpen_simple (pre : List Delim) (t : List Byte) :
    ∀ {mid : List Delim}, (∀ t, Delim.openLink t ∉ mid) →
      rfindOpen.lastOpen (pre ++ .openLink t :: mid) = some pre.length := by
  have hmid : ∀ {mid : List Delim}, (∀ t, Delim.openLink t ∉ mid) →
      rfindOpen.lastOpen mid = none := by
    intro mid h
    cases hx : rfindOpen.lastOpen mid with
    | none => rfl
    | some i =>
      obtain ⟨t, e⟩ := lastOpen_spec hx
      exact absurd (List.mem_of_getElem? e) (h t)
  intro mid h
  induction pre with
  | nil =>
    rw [List.nil_append, rfindOpen.lastOpen.eq_def]
    dsimp only
    rw [hmid h]
    rfl
  | cons d pre ih =>
    rw [List.cons_append, rfindOpen.lastOpen.eq_def]
    dsimp only
    rw [ih]
    rfl

theorem rfindOpen_simple (pre : List Delim) (t : List Byte) {mid : List Delim}
    (h : ∀ t, Delim.openLink t ∉ mid) :
    rfindOpen (pre ++ .openLink t :: mid) = some (some pre.length) := by
  rw [← lastOpen_simple pre t h]
  cases pre <;> rfl

theorem flush_nil (ds : List Delim) : flush ds [] = ds := rfl

theorem star_of {d : Byte} (h : d = 42 ∨ d = 95) : ∃ star, d = runChar star := by
  rcases h with rfl | rfl
  · exact ⟨true, rfl⟩
  · exact ⟨false, rfl⟩

theorem expandLoop_simple {a : Bool} {p : Option Byte} {es : List Inline} {s : List Sym}
    {n : Option Byte} (h : Writes a p es s n) :
    ∀ (ds : List Delim) (pending : List Byte) (rest : List Sym), (a = false → pending = []) →
      rest.head?.join = n →
      ∃ ds' pend D, DelimOf a D es ∧ flush ds' pend = flush ds pending ++ D ∧
        expandLoop ds pending p (s ++ rest) = expandLoop ds' pend (lastOr p s) rest := by
  have hspan : ∀ (k : Nat) (d : Byte) (p : Option Byte) (cs es : List Inline) (b s : List Sym)
      (n : Option Byte), d = 42 ∨ d = 95 → Outside p (firstOr b none) →
      Outside (firstOr s n) (lastOr none b) → firstOr b none ≠ some d → firstOr s n ≠ some d →
      (∀ (ds : List Delim) (pending : List Byte) (rest : List Sym), (false = false → pending = []) →
        rest.head?.join = some d →
        ∃ ds' pend D, DelimOf false D cs ∧ flush ds' pend = flush ds pending ++ D ∧
          expandLoop ds pending (some d) (b ++ rest) = expandLoop ds' pend (lastOr (some d) b) rest) →
      (∀ (ds : List Delim) (pending : List Byte) (rest : List Sym), (false = false → pending = []) →
        rest.head?.join = n →
        ∃ ds' pend D, DelimOf false D es ∧ flush ds' pend = flush ds pending ++ D ∧
          expandLoop ds pending (some d) (s ++ rest) = expandLoop ds' pend (lastOr (some d) s) rest) →
      ∀ (ds : List Delim) (pending : List Byte) (rest : List Sym), rest.head?.join = n →
      ∃ star ds' pend Dc D, d = runChar star ∧ DelimOf false Dc cs ∧ DelimOf false D es ∧
        flush ds' pend = flush ds pending ++ .run star true false (List.replicate (k + 1) d) ::
          (Dc ++ .run star false true (List.replicate (k + 1) d) :: D) ∧
        expandLoop ds pending p (List.replicate (k + 1) (some d) ++ (b ++
          (List.replicate (k + 1) (some d) ++ s)) ++ rest) =
          expandLoop ds' pend (lastOr (some d) s) rest := by
    intro k d p cs es b s n hd ho hc hb hs ihc ihs ds pending rest hr
    obtain ⟨star, rfl⟩ := star_of hd
    have hbne : b ≠ [] := by
      intro e; subst e; obtain ⟨_, e, _⟩ := ho; cases e
    have hbr : ∀ r : List Sym, (b ++ r).head?.join = firstOr b none := by
      intro r
      cases b with
      | nil => exact absurd rfl hbne
      | cons x b => rfl
    obtain ⟨ds1, p1, Dc, h1, h2, h3⟩ := ihc
      (flush ds pending ++ [.run star true false (List.replicate (k + 1) (runChar star))]) []
      (List.replicate (k + 1) (some (runChar star)) ++ (s ++ rest)) (fun _ => rfl)
      (by rw [List.replicate_succ]; rfl)
    obtain ⟨ds2, p2, D, h4, h5, h6⟩ := ihs
      (flush ds1 p1 ++ [.run star false true (List.replicate (k + 1) (runChar star))]) [] rest
      (fun _ => rfl) hr
    refine ⟨star, ds2, p2, Dc, D, rfl, h1, h4, ?_, ?_⟩
    · rw [h5, flush_nil, h2, flush_nil]; simp
    · rw [List.append_assoc, expandLoop_run (by rw [List.append_assoc, hbr]; exact hb), List.append_assoc,
        hbr, makeRun_open ho, List.append_assoc, h3,
        expandLoop_run (by rw [head_firstOr hr]; exact hs), head_firstOr hr,
        lastOr_ne (some _) none hbne, makeRun_close hc, h6]
  induction h with
  | nil => intro ds pending rest _ _; exact ⟨ds, pending, [], .nil, by simp, rfl⟩
  | text ht hpl _ ih =>
    rename_i p t es s n h
    intro ds pending rest ha hr
    have := ha rfl
    subst this
    obtain ⟨ds', pend, D, h1, h2, h3⟩ := ih ds t rest (by simp) hr
    refine ⟨ds', pend, _, .text (t := t) h1, ?_, ?_⟩
    · rw [h2]; simp [flush, ht]
    · rw [List.append_assoc, expandLoop_plain hpl, lastOr_append, lastOr_map p ht, List.nil_append, h3]
  | soft _ ih =>
    rename_i a p es c s n h
    intro ds pending rest ha hr
    obtain ⟨ds', pend, D, h1, h2, h3⟩ := ih (flush ds pending ++ [.elem .soft]) [] rest (fun _ => rfl) hr
    refine ⟨ds', pend, _, .elem (by simp) h1, ?_, ?_⟩
    · rw [h2, flush_nil]; simp
    · rw [List.cons_append, List.cons_append, expandLoop.eq_def]
      dsimp only
      rw [lastOr_cons, ← h3]
      rfl
  | emph hd ho hc hb hb' hs _ _ ihc ihs =>
    rename_i a p d cs b es s n _ _
    intro ds pending rest _ hr
    obtain ⟨star, ds', pend, Dc, D, rfl, h1, h2, h3, h4⟩ :=
      hspan 0 d p cs es b s n hd ho hc hb hs ihc ihs ds pending rest hr
    refine ⟨ds', pend, _, .emph (star := star) h1 h2, h3, ?_⟩
    rw [lastOr_cons, lastOr_append, lastOr_cons, ← h4]
    simp
  | strong hd ho hc hb hb' hs _ _ ihc ihs =>
    rename_i a p d cs b es s n _ _
    intro ds pending rest _ hr
    obtain ⟨star, ds', pend, Dc, D, rfl, h1, h2, h3, h4⟩ :=
      hspan 1 d p cs es b s n hd ho hc hb hs ihc ihs ds pending rest hr
    refine ⟨ds', pend, _, .strong (star := star) h1 h2, h3, ?_⟩
    rw [lastOr_cons, lastOr_cons, lastOr_append, lastOr_cons, lastOr_cons, ← h4]
    simp [List.replicate]
  | code hk h96 hnn hct hs _ ih =>
    rename_i a p k b t es s n _
    intro ds pending rest _ hr
    obtain ⟨ds', pend, D, h1, h2, h3⟩ := ih (flush ds pending ++ [.elem (.code t)]) [] rest
      (fun _ => rfl) hr
    refine ⟨ds', pend, _, .elem (by simp) h1, by rw [h2, flush_nil]; simp, ?_⟩
    obtain ⟨hb, hct⟩ := hct
    have hstrip : stripSpan (b.map spaced) = t := by
      rcases stripSpan_spec (r := b.map spaced) with ⟨m, e1, e2, e3⟩ | ⟨e1, e2⟩
      · rcases hct with ⟨m', e4, e5, rfl⟩ | ⟨e4, _⟩
        · rw [e3]
          rw [e1] at e4
          simp only [List.cons.injEq, true_and] at e4
          exact List.append_cancel_right e4
        · exact absurd ⟨m, e1, e2⟩ e4
      · rcases hct with ⟨m', e4, e5, rfl⟩ | ⟨_, e4⟩
        · exact absurd ⟨_, e4, e5⟩ e1
        · rw [e2, e4]
    have htne : t ≠ [] := by
      rcases hct with ⟨m', e4, ⟨c, hc, _⟩, rfl⟩ | ⟨_, rfl⟩
      · exact List.ne_nil_of_mem hc
      · simpa using hb
    have hsp := getCodeSpan_simple hk (s := s ++ rest) (by rw [head_firstOr hr]; exact hs) b.length b []
      (Nat.le_refl _) h96 hnn (by simpa using hb)
    rw [List.nil_append, hstrip] at hsp
    obtain ⟨k', rfl⟩ : ∃ k', k = k' + 1 := ⟨k - 1, by omega⟩
    have hh : (b ++ (List.replicate (k' + 1) (some 96) ++ (s ++ rest))).head?.join ≠ some 96 := by
      cases b with
      | nil => exact absurd rfl hb
      | cons x b =>
        intro e
        have e' : x = some 96 := e
        rw [e'] at h96; simp at h96
    have hl := runLen_replicate 96 hh k'
    have hdr : (List.replicate k' (some 96) ++ (b ++ (List.replicate (k' + 1) (some 96) ++
        (s ++ rest)))).drop k' = b ++ (List.replicate (k' + 1) (some 96) ++ (s ++ rest)) := by
      rw [List.drop_append, List.drop_of_length_le (by simp)]; simp
    rw [lastOr_append, lastOr_append, lastOr_replicate _ 96 (Nat.succ_pos k'), ← h3]
    simp only [List.append_assoc]
    rw [show List.replicate (k' + 1) (some 96) ++ (b ++ (List.replicate (k' + 1) (some 96) ++
      (s ++ rest))) = some 96 :: (List.replicate k' (some 96) ++ (b ++ (List.replicate (k' + 1)
      (some 96) ++ (s ++ rest)))) by rw [List.replicate_succ]; rfl, expandLoop.eq_def]
    dsimp only
    rw [if_pos rfl]
    split
    · rename_i e; rw [hl, hdr, hsp] at e; cases e
    · rename_i e; rw [hl, hdr, hsp] at e; cases e
      rw [if_pos htne]
    · rename_i e; rw [hl, hdr, hsp] at e; cases e
  | link _ hnest h92 h32 _ ihc ihs =>
    rename_i a p cs b raw es s n _ _
    intro ds pending rest _ hr
    obtain ⟨ds1, p1, Dc, h1, h2, h3⟩ := ihc (flush ds pending ++ [.openLink [91]]) []
      (some 93 :: some 40 :: (raw.map some ++ some 41 :: (s ++ rest))) (fun _ => rfl) rfl
    obtain ⟨ds2, p2, D, h4, h5, h6⟩ := ihs (flush ds pending ++ [.elem (.link raw cs)]) [] rest
      (fun _ => rfl) hr
    refine ⟨ds2, p2, _, .elem (e := .link raw cs) (by simp) h4, by rw [h5, flush_nil]; simp, ?_⟩
    have hfl : flush ds1 p1 = flush ds pending ++ .openLink [91] :: Dc := by
      rw [h2, flush_nil]; simp
    have e : lastOr p (some 91 :: (b ++ some 93 :: some 40 :: (raw.map some ++ some 41 :: s))) =
        lastOr (some 41) s := by
      rw [lastOr_cons, lastOr_append, lastOr_cons, lastOr_cons, lastOr_append, lastOr_cons]
    rw [e, ← h6, List.cons_append, expandLoop.eq_def]
    dsimp only
    rw [if_neg (by decide), if_neg (by decide), if_neg (by decide), if_pos rfl]
    simp only [List.append_assoc, List.cons_append]
    rw [h3, expandLoop.eq_def]
    dsimp only
    rw [if_neg (by decide), if_neg (by decide), if_neg (by decide), if_neg (by decide), if_pos rfl,
      if_pos (by rfl)]
    split
    · rename_i e; rw [hfl, rfindOpen_simple _ _ h1.noOpen] at e; cases e
    · rename_i e; rw [hfl, rfindOpen_simple _ _ h1.noOpen] at e; cases e
    · rename_i i e; rw [hfl, rfindOpen_simple _ _ h1.noOpen] at e; cases e
      have hpl := parseLink_simple (s := s ++ rest) hnest h92 h32
      split
      · rename_i e; rw [List.tail_cons, hpl] at e; cases e
      · rename_i e; rw [List.tail_cons, hpl] at e; cases e
      · rename_i e; rw [List.tail_cons, hpl] at e; cases e
        have hdrop : (flush ds1 p1).drop ((flush ds pending).length + 1) = Dc := by
          rw [hfl, List.drop_append, List.drop_of_length_le (by omega)]
          simp
        have htake : (flush ds1 p1).take (flush ds pending).length = flush ds pending := by
          rw [hfl]; simp
        rw [hdrop, processEmphasis_fin h1, htake]

theorem expandInline_simple {es : List Inline} {ls : List (List Byte)} (hne : ls ≠ [])
    (hl : ∀ l ∈ ls, l ≠ []) (h : Writes false none es (textOf ls) none) :
    expandInlineElements ls = some es := by
  obtain ⟨ds', pend, D, h1, h2, h3⟩ := expandLoop_simple h [] [] [] (fun _ => rfl) rfl
  have h4 : expandLoop [] [] none (textOf ls) = some D := by
    rw [List.append_nil] at h3
    rw [h3, expandLoop.eq_def]
    dsimp only
    rw [h2]; rfl
  have h0 : expandInlineElements ls = (match expandLoop [] [] none (textOf ls) with
      | none => none
      | some ds => processEmphasis ds) := by
    rw [← symsOf_eq]
    cases ls with
    | nil => exact absurd rfl hne
    | cons l ls =>
      cases l with
      | nil => exact absurd rfl (hl [] (by simp))
      | cons c l => rfl
  rw [h0, h4]
  exact processEmphasis_fin h1

end Verif.Markdown

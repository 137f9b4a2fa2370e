import Verif.Markdown.LemmasFlat
import Verif.Markdown.SpecList
import Verif.Num.Lemmas

/-!
# Lists of paragraphs
-/

namespace Verif.Markdown

open Verif Verif.Markdown.Spec

/-! ## Children -/

/-- The positions of the nodes with parent `p`, from position `b` on. -/
def kids (p : Nat) : Nat → List BNode → List Nat
  | _, [] => []
  | b, n :: ns => if n.parent = some p then b :: kids p (b + 1) ns else kids p (b + 1) ns

theorem childrenOf_kids (nodes : List BNode) (p : Nat) : childrenOf nodes p = kids p 0 nodes := by
  have key : ∀ (ns pre : List BNode), pre ++ ns = nodes →
      (List.range' pre.length ns.length).filter
        (fun i => (nodes[i]?).any (fun n => n.parent == some p)) = kids p pre.length ns := by
    intro ns
    induction ns with
    | nil => intro pre _; rfl
    | cons n ns ih =>
      intro pre hp
      have h1 : nodes[pre.length]? = some n := by rw [← hp]; simp
      have h2 := ih (pre ++ [n]) (by simpa using hp)
      rw [List.length_append, List.length_singleton] at h2
      rw [List.length_cons, List.range'_succ, kids]
      by_cases h : n.parent = some p
      · rw [List.filter_cons_of_pos (by simp [h1, h]), if_pos h, h2]
      · rw [List.filter_cons_of_neg (by simp [h1, h]), if_neg h, h2]
  unfold childrenOf
  rw [List.range_eq_range']
  exact key nodes [] rfl

theorem kids_append (p : Nat) : ∀ (x y : List BNode) (b : Nat),
    kids p b (x ++ y) = kids p b x ++ kids p (b + x.length) y
  | [], _, _ => rfl
  | n :: x, y, b => by
    rw [List.cons_append, kids, kids, kids_append p x y, List.length_cons,
      show b + 1 + x.length = b + (x.length + 1) by omega]
    split <;> rfl

theorem kids_none {p : Nat} : ∀ {ns : List BNode} (b : Nat), (∀ n ∈ ns, n.parent ≠ some p) →
    kids p b ns = []
  | [], _, _ => rfl
  | n :: ns, b, h => by
    rw [kids, if_neg (h n (by simp)), kids_none _ fun m hm => h m (List.mem_cons_of_mem _ hm)]

/-- None of the nodes is a child of the document. -/
def NoZero (ns : List BNode) : Prop := ∀ n ∈ ns, n.parent ≠ some 0

theorem lastKid {pre : List BNode} {n : BNode} {body : List BNode} (hn : n.parent = some 0)
    (hb : NoZero body) : (childrenOf (root :: (pre ++ n :: body)) 0).getLast? = some (pre.length + 1) := by
  rw [childrenOf_kids, kids, if_neg (by simp [root]), kids_append, kids, if_pos hn, kids_none _ hb,
    List.getLast?_append]
  simp [Nat.add_comm]

/-! ## The state in a list -/

/-- The node of an item. -/
def itemNode (li lv : Nat) : BNode := { type := .item, parent := some li, level := lv }

/-- The node of the paragraph in an item. -/
def textNode (p : Nat) (ts : List (List Byte)) : BNode := { type := .para, parent := some p, raw := ts }

/-- The node of a list. -/
def listNode (start : Int) (punc : Byte) (loose looseIf : Bool) : BNode :=
  { type := .list, parent := some 0, start := start, punc := punc, loose := loose, looseIf := looseIf }

/-- In an item of the list `n`. -/
def ist (pre : List BNode) (n : BNode) (body : List BNode) (lv : Nat) (ts : List (List Byte))
    (leaf c : Bool) : St :=
  { nodes := root :: (pre ++ n :: (body ++ [itemNode (pre.length + 1) lv,
      textNode (pre.length + body.length + 2) ts]))
    stack := [0, pre.length + body.length + 2]
    leaf := if leaf then some (pre.length + body.length + 3) else none
    blanks := 0
    check := c }

theorem modify_at (f : BNode → BNode) : ∀ (x : List BNode) (n : BNode) (y : List BNode),
    (x ++ n :: y).modify x.length f = x ++ f n :: y
  | [], _, _ => rfl
  | m :: x, n, y => by
    rw [List.cons_append, List.length_cons, List.modify_succ_cons, modify_at f x]
    rfl

section
variable (pre : List BNode) (n : BNode) (body : List BNode) (lv : Nat) (ts : List (List Byte))

/-- All nodes of `ist`. -/
abbrev istNodes : List BNode := root :: (pre ++ n :: (body ++ [itemNode (pre.length + 1) lv,
      textNode (pre.length + body.length + 2) ts]))

theorem ist_list : (istNodes pre n body lv ts)[pre.length + 1]? = some n := by
  simp [istNodes]

theorem ist_item : (istNodes pre n body lv ts)[pre.length + body.length + 2]? =
    some (itemNode (pre.length + 1) lv) := by
  unfold istNodes
  rw [List.getElem?_cons_succ, List.getElem?_append_right (by omega),
    show pre.length + body.length + 1 - pre.length = body.length + 1 by omega, List.getElem?_cons_succ,
    List.getElem?_append_right (by omega), Nat.sub_self]
  rfl

theorem ist_text : (istNodes pre n body lv ts)[pre.length + body.length + 3]? =
    some (textNode (pre.length + body.length + 2) ts) := by
  unfold istNodes
  rw [List.getElem?_cons_succ, List.getElem?_append_right (by omega),
    show pre.length + body.length + 2 - pre.length = body.length + 2 by omega, List.getElem?_cons_succ,
    List.getElem?_append_right (by omega), show body.length + 1 - body.length = 1 by omega]
  rfl

theorem ist_appendRaw (us : List (List Byte)) :
    appendRaw (istNodes pre n body lv ts) (pre.length + body.length + 3) us =
      istNodes pre n body lv (ts ++ us) := by
  have e : ∀ ts, istNodes pre n body lv ts = (root :: (pre ++ n :: (body ++ [itemNode (pre.length + 1) lv])))
      ++ [textNode (pre.length + body.length + 2) ts] := by
    intro ts; simp [istNodes]
  have hl : pre.length + body.length + 3 =
      (root :: (pre ++ n :: (body ++ [itemNode (pre.length + 1) lv]))).length := by simp; omega
  unfold appendRaw
  rw [e, e, hl, modify_at]
  simp [textNode]

theorem ist_modify (f : BNode → BNode) :
    (istNodes pre n body lv ts).modify (pre.length + 1) f = istNodes pre (f n) body lv ts := by
  unfold istNodes
  rw [List.modify_succ_cons, modify_at]

theorem matchLoop_ist {k : Nat} {c : Byte} {r : List Byte} (hc : Str.isWhite c = false) :
    matchLoop (istNodes pre n body lv ts) [pre.length + body.length + 2] 1
      ⟨List.replicate k 32 ++ c :: r, 0, 0⟩ =
      if lv ≤ k then some (2, ⟨c :: r, lv, k⟩) else some (1, ⟨c :: r, 0, k⟩) := by
  rw [matchLoop, ist_item, lc_spaces _ hc]
  dsimp only [itemNode]
  have : LC.inner ⟨c :: r, 0, k⟩ = k := by simp [LC.inner]
  rw [this]
  by_cases h : lv ≤ k
  · rw [if_pos h, if_pos h, matchLoop]
    unfold LC.skip
    dsimp only
    rw [skipLoop_stop _ hc, Nat.zero_add]
  · rw [if_neg h, if_neg h]

end

theorem text_cons {t : List Byte} (h : Text t) (w : List Byte) : ∃ c r, t ++ w = c :: r ∧
    Str.isWhite c = false ∧ c ∉ lit ">*-+0123456789" ∧ c ≠ 35 := by
  obtain ⟨⟨c, h1, h2, h3⟩, _⟩ := h
  cases t with
  | nil => cases h1
  | cons d t =>
    cases h1
    refine ⟨c, t ++ w, rfl, h2, fun hc => h3 (List.mem_cons_of_mem _ hc), ?_⟩
    rintro rfl; exact h3 (by decide)

theorem text_trimmed {t : List Byte} (h : Text t) {w : List Byte} (hw : White w) : Trimmed (t ++ w) t := by
  obtain ⟨⟨c, h1, h2, _⟩, h4⟩ := h
  exact ⟨[], w, by simp, (by intro x hx; cases hx), hw, ⟨c, h1, h2⟩, h4⟩

/-- Another line of an item. -/
theorem parseLine_more {pre : List BNode} {n : BNode} {body : List BNode} {lv : Nat}
    {ts : List (List Byte)} {l t : List Byte} (h : MoreLine lv l t) :
    parseLine (ist pre n body lv ts true false) l = some (ist pre n body lv (ts ++ [t]) true false) := by
  obtain ⟨k, w, hk, hw, ht, rfl⟩ := h
  obtain ⟨c, r, he, h1, h2, h3⟩ := text_cons ht w
  have htr : LC.trimmed ⟨c :: r, lv, k⟩ = t := by
    unfold LC.trimmed; dsimp only; rw [← he]; exact trim_eq (text_trimmed ht hw)
  have htn : t ≠ [] := trimmed_ne (text_trimmed ht hw)
  rw [List.append_assoc, he]
  have hm := matchLoop_ist pre n body lv ts (k := k) (r := r) h1
  rw [if_pos hk] at hm
  rw [parseLine_text (st := ist pre n body lv ts true false) hm (by rw [htr]; exact htn)
    (by simp [ist]) (markerLoop_none rfl (Or.inr ⟨h1, h2⟩))]
  have hp : (ist pre n body lv ts true false).hasPara = true := by
    show isType (istNodes pre n body lv ts) .para (pre.length + body.length + 3) = true
    unfold isType
    rw [ist_text]; rfl
  unfold parseParagraphText
  rw [hp, if_neg (by simp), if_pos (by rw [htr]; exact htn)]
  show (ist pre n body lv ts true false).addText ⟨c :: r, lv, k⟩ true = _
  unfold St.addText
  have hh : headingOf ⟨c :: r, lv, k⟩ = none := by
    unfold headingOf; rw [if_neg (by simp [h3])]
  rw [hh]
  dsimp only
  rw [if_pos rfl]
  show some ({ ist pre n body lv ts true false with
    nodes := appendRaw (istNodes pre n body lv ts) (pre.length + body.length + 3)
      [LC.trimmed ⟨c :: r, lv, k⟩] } : St) = _
  rw [ist_appendRaw, htr]
  rfl

/-- A blank line in a list. -/
theorem parseLine_itemBlank {pre : List BNode} {n : BNode} {body : List BNode} {lv : Nat}
    {ts : List (List Byte)} {leaf c : Bool} {l : List Byte} (h : Short l) (hn : n.type = .list)
    (hc : n.loose = true → n.looseIf = false ∧ c = false) :
    parseLine (ist pre n body lv ts leaf c) l =
      some (ist pre { n with looseIf := !n.loose } body lv ts false (!n.loose)) := by
  obtain ⟨k, hk, hlc⟩ := lc_short h
  have hm : ∃ keep lc, matchLoop (istNodes pre n body lv ts) [pre.length + body.length + 2] 1
      ⟨l, 0, 0⟩ = some (keep, lc) ∧ lc.trimmed = [] ∧ (keep = 1 ∨ keep = 2) := by
    rw [matchLoop, ist_item, hlc]
    dsimp only [itemNode]
    split
    · exact ⟨_, _, rfl, trimmed10, Or.inr rfl⟩
    · exact ⟨_, _, rfl, trimmed10, Or.inl rfl⟩
  obtain ⟨keep, lc, hm, ht, hk⟩ := hm
  rw [parseLine_blank (st := ist pre n body lv ts leaf c) hm ht]
  have hty : isType (istNodes pre n body lv ts) .item (pre.length + body.length + 2) = true := by
    unfold isType; rw [ist_item]; rfl
  have hkeep : keep + (((ist pre n body lv ts leaf c).stack.drop keep).takeWhile
      (isType (ist pre n body lv ts leaf c).nodes .item)).length = 2 := by
    rcases hk with rfl | rfl
    · show 1 + (List.takeWhile (isType (istNodes pre n body lv ts) .item)
        [pre.length + body.length + 2]).length = 2
      rw [List.takeWhile_cons_of_pos hty]; rfl
    · rfl
  have hpara : (ist pre n body lv ts leaf c).hasPara = leaf := by
    cases leaf with
    | false => rfl
    | true =>
      show isType (istNodes pre n body lv ts) .para (pre.length + body.length + 3) = true
      unfold isType
      rw [ist_text]; rfl
  unfold St.blankLine
  rw [if_neg (by simp [ist])]
  dsimp only
  rw [hkeep, if_neg (by simp [ist]), hpara]
  have e1 : (if leaf = true then { ist pre n body lv ts leaf c with leaf := none }
      else ist pre n body lv ts leaf c) = ist pre n body lv ts false c := by
    cases leaf <;> rfl
  have e2 : (ist pre n body lv ts false c).truncate 2 = ist pre n body lv ts false c := by
    unfold St.truncate; rw [if_neg (by simp [ist])]
  rw [e1, e2]
  show markLoop [0, pre.length + body.length + 2] (ist pre n body lv ts false c) = _
  rw [markLoop]
  show markLoop [pre.length + body.length + 2] (ist pre n body lv ts false c) = _
  rw [markLoop]
  show (match (istNodes pre n body lv ts)[pre.length + body.length + 2]? with
    | none => none
    | some node => _) = _
  rw [ist_item]
  dsimp only [itemNode]
  rw [if_pos rfl]
  show (match (istNodes pre n body lv ts)[pre.length + 1]? with
    | none => none
    | some node => _) = _
  rw [ist_list]
  dsimp only
  rw [if_pos hn]
  by_cases hl : n.loose = true
  · rw [if_neg (by simp [hl]), markLoop]
    obtain ⟨h1, rfl⟩ := hc hl
    have : ({ n with looseIf := !n.loose } : BNode) = n := by
      have h2 : (!n.loose) = n.looseIf := by rw [hl, h1]; rfl
      rw [h2]
    rw [this, hl]
    rfl
  · have hl' : (!n.loose) = true := by simp [hl]
    rw [if_pos hl', markLoop, hl']
    show some ({ ist pre n body lv ts false c with
      nodes := (istNodes pre n body lv ts).modify (pre.length + 1) _, check := true } : St) = _
    rw [ist_modify]
    rfl

theorem parseLines_itemBlank {pre : List BNode} {n : BNode} {body : List BNode} {lv : Nat}
    {ts : List (List Byte)} (hn : n.type = .list) (hf : n.looseIf = false) :
    ∀ {bl : List (List Byte)}, (∀ b ∈ bl, Short b) →
    parseLines (ist pre n body lv ts true false) bl =
      some (ist pre { n with looseIf := !bl.isEmpty && !n.loose } body lv ts bl.isEmpty
        (!bl.isEmpty && !n.loose)) := by
  have more : ∀ {bl : List (List Byte)}, (∀ b ∈ bl, Short b) →
      parseLines (ist pre { n with looseIf := !n.loose } body lv ts false (!n.loose)) bl =
        some (ist pre { n with looseIf := !n.loose } body lv ts false (!n.loose)) := by
    intro bl
    induction bl with
    | nil => intro _; rfl
    | cons b bl ih =>
      intro h
      rw [parseLines, parseLine_itemBlank (h b (by simp)) (by exact hn)
        (by intro hl; have : n.loose = true := hl; simp [this])]
      exact ih fun x hx => h x (List.mem_cons_of_mem _ hx)
  intro bl h
  cases bl with
  | nil =>
    have : ({ n with looseIf := false } : BNode) = n := by cases n; simp at hf; simp [hf]
    simp [parseLines, this]
  | cons b bl =>
    rw [parseLines, parseLine_itemBlank (h b (by simp)) hn (fun _ => ⟨hf, rfl⟩)]
    exact more fun x hx => h x (List.mem_cons_of_mem _ hx)

/-! ## Item lines -/

theorem digit_of_lit : ∀ c : Byte, c ∈ lit "0123456789" →
    Num.digitOf c = c.toNat - 48 ∧ c.toNat - 48 < 10 ∧ Str.isDecimalDigit c = true ∧
      Str.isWhite c = false ∧ c ≠ 62 ∧ ¬ (c = 42 ∨ c = 45 ∨ c = 43) := by
  apply forall_byte; decide +kernel

theorem punc_of_lit : ∀ c : Byte, c ∈ lit ".)" → 10 ≤ Num.digitOf c ∧ (c = 46 ∨ c = 41) := by
  apply forall_byte; decide +kernel

theorem bullet_of_lit : ∀ c : Byte, c ∈ lit "*-+" → Str.isWhite c = false ∧ c ≠ 62 ∧
    (c = 42 ∨ c = 45 ∨ c = 43) := by
  apply forall_byte; decide +kernel

theorem parseLoop_digits {p : Byte} (hp : 10 ≤ Num.digitOf p) (r : List Byte) :
    ∀ (ds : List Byte) (n : Nat) (any : Bool), (∀ d ∈ ds, d ∈ lit "0123456789") → ds.length ≤ 9 →
      n < 10 ^ (9 - ds.length) → (any = true ∨ ds ≠ []) →
      Num.parseLoop 10 n any false (ds ++ p :: r) =
        ⟨ds.foldl (fun n d => 10 * n + (d.toNat - 48)) n, false, p :: r⟩
  | [], n, any, _, _, _, ha => by
    have : any = true := ha.resolve_right (by simp)
    subst this
    rw [List.nil_append, Num.parseLoop]
    dsimp only
    rw [if_pos hp]
    rfl
  | d :: ds, n, any, hd, hl, hn, _ => by
    obtain ⟨h1, h2, _⟩ := digit_of_lit d (hd d (by simp))
    rw [List.length_cons] at hl hn
    have hn' : 10 * n + (d.toNat - 48) < 10 ^ (9 - ds.length) := by
      rw [show 9 - ds.length = (9 - (ds.length + 1)) + 1 by omega, Nat.pow_succ]; omega
    have hle : 10 ^ (9 - ds.length) ≤ 10 ^ 9 := Nat.pow_le_pow_right (by omega) (by omega)
    rw [List.cons_append, Num.parseLoop]
    dsimp only
    rw [h1, if_neg (by omega)]
    have e1 : u64 (n * 10 + (d.toNat - 48)) = 10 * n + (d.toNat - 48) := by
      unfold u64; rw [Nat.mod_eq_of_lt] <;> omega
    have e2 : (false || (decide (n > 0x71c71c71c71c71b) &&
        decide (n > (2 ^ 64 - 1 - (d.toNat - 48)) / 10))) = false := by
      have : ¬ n > 0x71c71c71c71c71b := by omega
      simp [this]
    rw [e1, e2, parseLoop_digits hp r ds _ true (fun x hx => hd x (List.mem_cons_of_mem _ hx))
      (by omega) hn' (Or.inl rfl)]
    rfl

theorem white_replicate (j : Nat) (hj : 1 ≤ j) (s : List Byte) :
    List.replicate j (32 : Byte) ++ s = 32 :: (List.replicate (j - 1) 32 ++ s) := by
  obtain ⟨i, rfl⟩ : ∃ i, j = i + 1 := ⟨j - 1, by omega⟩
  rw [List.replicate_succ]; rfl

theorem trim_spaces (j : Nat) (s : List Byte) :
    Str.trim Str.isWhite true true (List.replicate j 32 ++ s) = Str.trim Str.isWhite true true s := by
  unfold Str.trim
  simp only [if_true]
  rw [trimLeft_white]
  intro c hc
  rw [List.eq_of_mem_replicate hc]; rfl

/-- The round for the marker of an item. -/
theorem markerStep_item {st st' : St} {num : Int} {punc : Byte} {m : List Byte} (hm : Marker num punc m)
    {k j : Nat} {s : List Byte} (hj : 1 ≤ j) (hs : Str.trim Str.isWhite true true s ≠ [])
    (hlf : st.leaf.isSome = true → num = -1 ∨ num = 1)
    (hg : st.gotListMarker (k + m.length + 1) num punc = some st') :
    ∃ c r, m ++ List.replicate j 32 ++ s = c :: r ∧ Str.isWhite c = false ∧
      markerStep st ⟨c :: r, 0, k⟩ c r =
      some (some (st', ⟨List.replicate (j - 1) 32 ++ s, k + m.length + 1, k + m.length + 1⟩)) := by
  have hl : ∀ i, i = k + m.length →
      listMarker st ⟨List.replicate j 32 ++ s, 0, i⟩ num punc =
      some (some (st', ⟨List.replicate (j - 1) 32 ++ s, k + m.length + 1, k + m.length + 1⟩)) := by
    rintro i rfl
    unfold listMarker
    rw [white_replicate j hj]
    have e : LC.space ⟨32 :: (List.replicate (j - 1) 32 ++ s), 0, k + m.length⟩ =
        some ⟨List.replicate (j - 1) 32 ++ s, 0, k + m.length + 1⟩ := rfl
    rw [e]
    dsimp only
    rw [if_neg (by unfold LC.trimmed; dsimp only; rw [trim_spaces]; exact fun h => hs h.2), hg]
  cases hm with
  | bullet hc =>
    obtain ⟨h1, h2, h3⟩ := bullet_of_lit _ hc
    refine ⟨punc, List.replicate j 32 ++ s, rfl, h1, ?_⟩
    unfold markerStep
    rw [if_neg (by simp [h1]), if_neg h2, if_pos h3]
    exact hl _ rfl
  | @number ds _ hne hlen hd hp =>
    cases ds with
    | nil => exact absurd rfl hne
    | cons c ds =>
      obtain ⟨_, _, h3, h4, h5, h6⟩ := digit_of_lit c (hd c (by simp))
      obtain ⟨hp1, hp2⟩ := punc_of_lit _ hp
      refine ⟨c, ds ++ [punc] ++ List.replicate j 32 ++ s, by simp, h4, ?_⟩
      unfold markerStep
      rw [if_neg (by simp [h4]), if_neg h5, if_neg h6, if_pos h3]
      have hpl := parseLoop_digits hp1 (List.replicate j 32 ++ s) (c :: ds) 0 false hd hlen
        (Nat.pow_pos (by omega)) (Or.inr (by simp))
      have e : c :: (ds ++ [punc] ++ List.replicate j 32 ++ s) =
          (c :: ds) ++ punc :: (List.replicate j 32 ++ s) := by simp
      rw [e, hpl]
      dsimp only
      have hv : ¬ (st.leaf.isSome = true ∧
          List.foldl (fun n d => 10 * n + (UInt8.toNat d - 48)) 0 (c :: ds) ≠ 1) := by
        rintro ⟨h, h'⟩
        rcases hlf h with h | h
        · cases h
        · exact h' (by unfold numberOf at h; exact Int.ofNat.inj h)
      have hml : ((c :: ds) ++ punc :: (List.replicate j 32 ++ s)).length -
          (punc :: (List.replicate j 32 ++ s)).length = (c :: ds).length := by
        rw [List.length_append]; omega
      rw [if_neg hv, hml, if_neg (by omega), white_replicate j hj]
      dsimp only
      rw [if_pos hp2, ← white_replicate j hj]
      exact hl _ (by simp; omega)

/-- The loop over the markers of an item line. -/
theorem markerLoop_item {st st' : St} {num : Int} {punc : Byte} {m : List Byte} (hm : Marker num punc m)
    {k j : Nat} {t w : List Byte} (hk : k ≤ 3) (hj : 1 ≤ j) (hj' : j ≤ 4) (ht : Text t) (hw : White w)
    (hlf : st.leaf.isSome = true → num = -1 ∨ num = 1)
    (hg : st.gotListMarker (k + m.length + 1) num punc = some st') :
    ∃ c r, m ++ List.replicate j 32 ++ (t ++ w) = c :: r ∧ Str.isWhite c = false ∧
      markerLoop (c :: r).length st ⟨c :: r, 0, k⟩ =
        some (st', ⟨t ++ w, k + m.length + 1, k + m.length + j⟩) := by
  obtain ⟨c, r, h1, h2, h3⟩ := markerStep_item (s := t ++ w) hm (k := k) hj
    (by rw [trim_eq (text_trimmed ht hw)]; exact trimmed_ne (text_trimmed ht hw)) hlf hg
  refine ⟨c, r, h1, h2, ?_⟩
  rw [List.length_cons, markerLoop]
  dsimp only
  rw [if_neg (by simp [LC.inner]; omega), h3]
  dsimp only
  obtain ⟨d, q, e, h4, h5, _⟩ := text_cons ht w
  have hsk : LC.skip ⟨List.replicate (j - 1) 32 ++ (t ++ w), k + m.length + 1, k + m.length + 1⟩ =
      ⟨d :: q, k + m.length + 1, k + m.length + j⟩ := by
    unfold LC.skip
    dsimp only
    rw [e, skipLoop_spaces, skipLoop_stop _ h4]
    dsimp only
    congr 1; omega
  rw [hsk, e]
  generalize hrn : r.length = rn
  cases rn with
  | zero => rfl
  | succ rn =>
    rw [markerLoop]
    dsimp only
    have h6 : d ≠ 62 := by rintro rfl; exact h5 (by decide)
    have h7 : ¬ (d = 42 ∨ d = 45 ∨ d = 43) := by
      rintro (rfl | rfl | rfl) <;> exact h5 (by decide)
    have h8 : Str.isDecimalDigit d = false := digit_lit d h5
    have : ∀ lc : LC, markerStep st' lc d q = some none := by
      intro lc
      unfold markerStep
      rw [if_neg (by simp [h4]), if_neg h6, if_neg h7, if_neg (by simp [h8])]
    rw [this]
    split <;> rfl

/-- After the marker: the paragraph of a new item. -/
theorem text_item {nodes : List BNode} {s0 : List Nat} {p : Nat} {b : Nat} {c : Bool} {st2 : St}
    {line : List Byte} {col i : Nat} {t w : List Byte} (ht : Text t) (hw : White w) (hi : col ≤ i)
    (hi' : i < col + 4)
    (hl : St.loosen { nodes := nodes, stack := s0 ++ [p], leaf := none, blanks := b, check := c } =
      some st2) (hs : st2.stack = s0 ++ [p]) (hln : st2.leaf = none) :
    parseParagraphText { nodes := nodes, stack := s0 ++ [p], leaf := none, blanks := b, check := c }
        line ⟨t ++ w, col, i⟩ =
      some { st2 with
        nodes := st2.nodes ++ [textNode p [t]], leaf := some st2.nodes.length, blanks := 0 } := by
  have htr : LC.trimmed ⟨t ++ w, col, i⟩ = t := trim_eq (text_trimmed ht hw)
  have htn : t ≠ [] := trimmed_ne (text_trimmed ht hw)
  obtain ⟨d, q, e, h4, h5, h6⟩ := text_cons ht w
  have hin : ¬ LC.inner ⟨t ++ w, col, i⟩ ≥ 4 := by
    unfold LC.inner; dsimp only; rw [if_pos hi]; omega
  unfold parseParagraphText
  rw [if_neg (by simp [hin]), if_pos (by rw [htr]; exact htn), hl]
  dsimp only
  have hh : headingOf ⟨t ++ w, col, i⟩ = none := by
    unfold headingOf; dsimp only; rw [e, if_neg (by simp [h6])]
  unfold St.addText
  rw [hh]
  dsimp only
  rw [if_neg (by simp [St.hasPara])]
  unfold St.addLeaf
  rw [hs, List.getLast?_concat]
  dsimp only [Option.map_some]
  rw [htr]
  congr 2
  unfold appendRaw
  rw [modify_at]
  rfl

/-- A new item of a list that is there. -/
theorem parseLine_item {pre : List BNode} {n : BNode} {body : List BNode} {lv : Nat}
    {ts : List (List Byte)} {leaf : Bool} {num : Int} {punc : Byte} {k col : Nat} {l t : List Byte}
    (h : ItemLine num punc k col l t) (hk : k < lv) (hn : n.type = .list) (hn0 : n.parent = some 0)
    (hb : NoZero body) (hp : n.punc = punc) (hs : n.start ≥ 0 ↔ num ≥ 0) :
    parseLine (ist pre n body lv ts leaf n.looseIf) l =
      some (ist pre { n with loose := n.loose || n.looseIf, looseIf := false }
        (body ++ [itemNode (pre.length + 1) lv, textNode (pre.length + body.length + 2) ts])
        col [t] true false) := by
  obtain ⟨m, j, w, hk3, hm, hj, hj', hw, ht, rfl, rfl⟩ := h
  generalize hst : (⟨istNodes pre n body lv ts, [0], none, 0, n.looseIf⟩ : St) = st
  have hb' : NoZero (body ++ [itemNode (pre.length + 1) lv, textNode (pre.length + body.length + 2) ts]) := by
    intro x hx
    rcases List.mem_append.mp hx with hx | hx
    · exact hb x hx
    · rcases List.mem_cons.mp hx with rfl | hx
      · simp [itemNode]
      · rw [List.mem_singleton.mp hx]; simp [textNode]
  have hg : st.gotListMarker (k + m.length + 1) num punc =
      some ⟨istNodes pre n body lv ts ++ [itemNode (pre.length + 1) (k + m.length + 1)],
        [] ++ [0] ++ [(istNodes pre n body lv ts).length], none, 0, n.looseIf⟩ := by
    rw [← hst]
    unfold St.gotListMarker
    dsimp only [List.getLast?_singleton]
    show (match (istNodes pre n body lv ts)[0]? with
      | none => none
      | some par => _) = _
    rw [show (istNodes pre n body lv ts)[0]? = some root from rfl]
    dsimp only
    rw [if_neg (by simp [root, BType.isContainer]), lastKid hn0 hb']
    dsimp only
    rw [ist_list]
    dsimp only
    rw [if_pos ⟨hn, hs, hp⟩]
    rfl
  obtain ⟨c, r, e1, e2, e3⟩ := markerLoop_item (st := st) hm hk3 hj hj' ht hw
    (by rw [← hst]; intro h; cases h) hg
  rw [show List.replicate k 32 ++ m ++ List.replicate j 32 ++ t ++ w =
    List.replicate k 32 ++ (m ++ List.replicate j 32 ++ (t ++ w)) by simp, e1]
  have hml := matchLoop_ist pre n body lv ts (k := k) (r := r) e2
  rw [if_neg (by omega)] at hml
  have htr : LC.trimmed ⟨c :: r, 0, k⟩ ≠ [] := by
    intro e
    have := white_of_trim e c (by simp)
    rw [e2] at this; cases this
  have hml' : matchLoop (ist pre n body lv ts leaf n.looseIf).nodes
      ((ist pre n body lv ts leaf n.looseIf).stack.drop 1) 1 ⟨List.replicate k 32 ++ c :: r, 0, 0⟩ =
      some (1, ⟨c :: r, 0, k⟩) := hml
  unfold parseLine matchExisting
  rw [hml']
  dsimp only
  rw [if_neg htr]
  dsimp only
  have htc : (ist pre n body lv ts leaf n.looseIf).truncate 1 = st := by
    rw [← hst]; unfold St.truncate; rw [if_pos (by simp [ist])]; rfl
  unfold parseNewMarkers
  rw [if_neg htr, htc, e3]
  dsimp only
  have hlen : (istNodes pre n body lv ts).length = pre.length + (body.length + 2) + 2 := by
    simp [istNodes]; omega
  have hl : St.loosen ⟨istNodes pre n body lv ts ++ [itemNode (pre.length + 1) (k + m.length + 1)],
        [] ++ [0] ++ [(istNodes pre n body lv ts).length], none, 0, n.looseIf⟩ =
      some ⟨istNodes pre { n with loose := n.loose || n.looseIf, looseIf := false } body lv ts ++
        [itemNode (pre.length + 1) (k + m.length + 1)], [] ++ [0] ++ [(istNodes pre n body lv ts).length],
        none, 0, false⟩ := by
    unfold St.loosen
    dsimp only
    by_cases hc : n.looseIf = true
    · rw [if_pos hc, if_neg (by simp)]
      have e4 : (istNodes pre n body lv ts ++
          [itemNode (pre.length + 1) (k + m.length + 1)])[(istNodes pre n body lv ts).length]? =
          some (itemNode (pre.length + 1) (k + m.length + 1)) := by simp
      have e5 : (istNodes pre n body lv ts ++
          [itemNode (pre.length + 1) (k + m.length + 1)])[pre.length + 1]? = some n := by
        rw [List.getElem?_append_left (by rw [hlen]; omega), ist_list]
      have e6 : (istNodes pre n body lv ts ++
          [itemNode (pre.length + 1) (k + m.length + 1)]).modify (pre.length + 1)
            (fun q => { q with loose := true, looseIf := false }) =
          istNodes pre { n with loose := true, looseIf := false } body lv ts ++
            [itemNode (pre.length + 1) (k + m.length + 1)] := by
        have := modify_at (fun q => { q with loose := true, looseIf := false }) (root :: pre) n
          (body ++ [itemNode (pre.length + 1) lv, textNode (pre.length + body.length + 2) ts] ++
            [itemNode (pre.length + 1) (k + m.length + 1)])
        simpa [istNodes] using this
      rw [show ([] ++ [0] ++ [(istNodes pre n body lv ts).length] : List Nat) =
        [0, (istNodes pre n body lv ts).length] from rfl, loosenLoop]
      show (match loosenLoop [(istNodes pre n body lv ts).length] _ with
        | none => none
        | some st' => _) = _
      rw [loosenLoop, e4]
      dsimp only [itemNode]
      dsimp only [itemNode] at e5 e6
      rw [if_pos rfl, e5]
      dsimp only
      rw [if_pos hn, if_pos hc, e6, loosenLoop, hc, Bool.or_true]
    · rw [if_neg hc]
      have hc : n.looseIf = false := by simpa using hc
      have : ({ n with loose := n.loose || n.looseIf, looseIf := false } : BNode) = n := by
        rw [hc, Bool.or_false, ← hc]
      rw [this, hc]
  rw [text_item ht hw (by omega) (by omega) hl rfl rfl]
  have hlen' : (istNodes pre { n with loose := n.loose || n.looseIf, looseIf := false } body lv ts ++
      [itemNode (pre.length + 1) (k + m.length + 1)]).length = pre.length + (body.length + 2) + 3 := by
    rw [List.length_append]; simp [istNodes]; omega
  rw [hlen', hlen]
  unfold ist
  simp [istNodes]

/-- The first item of a list. -/
theorem parseLine_newItem {st : St} {ns : List BNode} {leaf : Option Nat} {b : Nat} {ch : Bool}
    {num : Int} {punc : Byte} {k col : Nat} {l t : List Byte}
    (h : ItemLine num punc k col l t)
    (hst : ∀ c r, Str.isWhite c = false → matchExisting st (List.replicate k 32 ++ c :: r) =
      some (⟨root :: ns, [0], leaf, b, ch⟩, ⟨c :: r, 0, k⟩, true))
    (hlf : leaf.isSome = true → num = -1 ∨ num = 1)
    (hlast : ∀ i, (childrenOf (root :: ns) 0).getLast? = some i → ∃ n, (root :: ns)[i]? = some n ∧
      ¬ (n.type = .list ∧ n.punc = punc)) :
    parseLine st l = some (ist ns (listNode num punc false false) [] col [t] true false) := by
  obtain ⟨m, j, w, hk3, hm, hj, hj', hw, ht, rfl, rfl⟩ := h
  generalize hst0 : (⟨root :: ns, [0], leaf, b, ch⟩ : St) = st0 at hst
  have hg : st0.gotListMarker (k + m.length + 1) num punc =
      some ⟨root :: (ns ++ [listNode num punc false false, itemNode (ns.length + 1) (k + m.length + 1)]),
        [0] ++ [ns.length + 2], none, 0, ch⟩ := by
    rw [← hst0]
    unfold St.gotListMarker
    dsimp only [List.getLast?_singleton]
    rw [List.getElem?_cons_zero]
    dsimp only
    rw [if_neg (by simp [root, BType.isContainer])]
    cases hc : (childrenOf (root :: ns) 0).getLast? with
    | none =>
      dsimp only
      rw [if_neg (by simp [root])]
      rfl
    | some i =>
      obtain ⟨n, h1, h2⟩ := hlast i hc
      dsimp only
      rw [h1]
      dsimp only
      rw [if_neg (by rintro ⟨h3, _, h4⟩; exact h2 ⟨h3, h4⟩)]
      rfl
  obtain ⟨c, r, e1, e2, e3⟩ := markerLoop_item (st := st0) hm hk3 hj hj' ht hw
    (by rw [← hst0]; exact hlf) hg
  rw [show List.replicate k 32 ++ m ++ List.replicate j 32 ++ t ++ w =
    List.replicate k 32 ++ (m ++ List.replicate j 32 ++ (t ++ w)) by simp, e1]
  have htr : LC.trimmed ⟨c :: r, 0, k⟩ ≠ [] := by
    intro e
    have := white_of_trim e c (by simp)
    rw [e2] at this; cases this
  unfold parseLine
  rw [hst c r e2]
  dsimp only
  unfold parseNewMarkers
  rw [if_neg htr, e3]
  dsimp only
  have hl : St.loosen ⟨root :: (ns ++ [listNode num punc false false,
        itemNode (ns.length + 1) (k + m.length + 1)]), [0] ++ [ns.length + 2], none, 0, ch⟩ =
      some ⟨root :: (ns ++ [listNode num punc false false,
        itemNode (ns.length + 1) (k + m.length + 1)]), [0] ++ [ns.length + 2], none, 0, false⟩ := by
    unfold St.loosen
    cases ch with
    | false => rfl
    | true =>
      dsimp only
      rw [if_pos rfl, if_neg (by simp), show ([0] ++ [ns.length + 2] : List Nat) = [0, ns.length + 2] from rfl,
        loosenLoop, List.getElem?_cons_zero]
      dsimp only
      rw [if_neg (by simp [root]), loosenLoop]
      have e4 : (root :: (ns ++ [listNode num punc false false,
          itemNode (ns.length + 1) (k + m.length + 1)]))[ns.length + 2]? =
          some (itemNode (ns.length + 1) (k + m.length + 1)) := by simp
      have e5 : (root :: (ns ++ [listNode num punc false false,
          itemNode (ns.length + 1) (k + m.length + 1)]))[ns.length + 1]? =
          some (listNode num punc false false) := by simp
      dsimp only
      rw [e4]
      dsimp only [itemNode]
      dsimp only [itemNode] at e5
      rw [if_pos rfl, e5]
      dsimp only [listNode]
      rw [if_pos rfl, if_neg (by simp), loosenLoop]
  rw [text_item ht hw (by omega) (by omega) hl rfl rfl]
  unfold ist
  simp

/-! ## Lists -/

/-- The nodes of items, the first at position `b`. -/
def itemNodes (li : Nat) : (b : Nat) → List (Nat × List (List Byte)) → List BNode
  | _, [] => []
  | b, (lv, ts) :: its => itemNode li lv :: textNode b ts :: itemNodes li (b + 2) its

theorem marker_ordered {num : Int} {punc : Byte} {m : List Byte} (h : Marker num punc m) :
    num ≥ 0 ↔ punc = 46 ∨ punc = 41 := by
  cases h with
  | bullet hc =>
    have := (bullet_of_lit _ hc).2.2
    constructor
    · intro h; exact absurd h (by decide)
    · rintro (rfl | rfl) <;> revert this <;> decide
  | number _ _ _ hp => exact ⟨fun _ => (punc_of_lit _ hp).2, fun _ => Int.natCast_nonneg _⟩

theorem itemLine_ordered {num : Int} {punc : Byte} {k col : Nat} {l t : List Byte}
    (h : ItemLine num punc k col l t) : num ≥ 0 ↔ punc = 46 ∨ punc = 41 := by
  obtain ⟨m, _, _, _, hm, _⟩ := h
  exact marker_ordered hm

theorem parseLines_more {pre : List BNode} {n : BNode} {body : List BNode} {lv : Nat}
    {ls ts : List (List Byte)} (h : Each (MoreLine lv) ls ts) : ∀ ts0,
    parseLines (ist pre n body lv ts0 true false) ls =
      some (ist pre n body lv (ts0 ++ ts) true false) := by
  induction h with
  | nil => intro ts0; rw [List.append_nil]; rfl
  | cons h _ ih =>
    intro ts0
    rw [parseLines_one (parseLine_more h), ih, List.append_assoc]
    rfl

theorem listLines_ordered {punc : Byte} {start : Int} {k col : Nat} {loose : Bool}
    {ls : List (List Byte)} {items : List (List (List Byte))}
    (h : ListLines punc start k col loose ls items) : start ≥ 0 ↔ punc = 46 ∨ punc = 41 := by
  cases h with
  | one h => cases h with | mk h _ => exact itemLine_ordered h
  | more h _ _ _ => cases h with | mk h _ => exact itemLine_ordered h

theorem noZero_pair {body : List BNode} (hb : NoZero body) (li lv p : Nat) (ts : List (List Byte)) :
    NoZero (body ++ [itemNode (li + 1) lv, textNode (p + 2) ts]) := by
  intro x hx
  rcases List.mem_append.mp hx with hx | hx
  · exact hb x hx
  · rcases List.mem_cons.mp hx with rfl | hx
    · simp [itemNode]
    · rw [List.mem_singleton.mp hx]; simp [textNode]

theorem parseLines_list {punc : Byte} {start : Int} {k col : Nat} {loose : Bool}
    {ls : List (List Byte)} {items : List (List (List Byte))}
    (h : ListLines punc start k col loose ls items) :
    ∀ {st : St} {pre : List BNode} {n : BNode} {body : List BNode}, n.type = .list →
      n.parent = some 0 → n.looseIf = false → n.punc = punc → (n.start ≥ 0 ↔ start ≥ 0) → NoZero body →
      (∀ l t c, ls.head? = some l → ItemLine start punc k c l t →
        parseLine st l = some (ist pre n body c [t] true false)) →
      ∃ body' ts its, parseLines st ls =
          some (ist pre { n with loose := n.loose || loose } body' col ts true false) ∧
        its.map Prod.snd = items ∧ NoZero body' ∧
        body' ++ [itemNode (pre.length + 1) col, textNode (pre.length + body'.length + 2) ts] =
          body ++ itemNodes (pre.length + 1) (pre.length + body.length + 2) its := by
  induction h with
  | @one num k col ls ts h =>
    intro st pre n body _ _ _ _ _ hb H
    cases h with
    | @mk l t ls ts hi hm =>
      refine ⟨body, t :: ts, [(col, t :: ts)], ?_, rfl, hb, rfl⟩
      rw [parseLines_one (H l t col rfl hi), parseLines_more hm, Bool.or_false]
      rfl
  | @more num k col ls ts bl num' k' col' loose ls' items h hbl hk h' ih =>
    intro st pre n body hn hn0 hf hp hs hb H
    cases h with
    | @mk l t ls ts hi hm =>
      have hs' : n.start ≥ 0 ↔ num' ≥ 0 := by
        rw [hs, itemLine_ordered hi, listLines_ordered h']
      have step := ih (st := ist pre { n with looseIf := !bl.isEmpty && !n.loose } body col (t :: ts)
          bl.isEmpty (!bl.isEmpty && !n.loose)) (pre := pre)
        (n := { n with loose := n.loose || !bl.isEmpty })
        (body := body ++ [itemNode (pre.length + 1) col, textNode (pre.length + body.length + 2) (t :: ts)])
        hn hn0 hf hp hs' (noZero_pair hb _ _ _ _) (fun l t c _ hl => by
          rw [parseLine_item (n := { n with looseIf := !bl.isEmpty && !n.loose }) hl hk hn hn0 hb hp hs']
          have e : (n.loose || !bl.isEmpty && !n.loose) = (n.loose || !bl.isEmpty) := by
            cases n.loose <;> simp
          dsimp only
          rw [e, ← hf])
      obtain ⟨body', us, its, h1, h2, h3, h4⟩ := step
      refine ⟨body', us, (col, t :: ts) :: its, ?_, by rw [List.map_cons, h2], h3, ?_⟩
      · rw [List.append_assoc, List.cons_append, parseLines_one (H l t col rfl hi), parseLines_append,
          parseLines_more hm, Option.bind_some, parseLines_append, List.singleton_append,
          parseLines_itemBlank hn hf hbl, Option.bind_some, h1]
        dsimp only
        rw [Bool.or_assoc]
      · rw [h4, itemNodes, List.append_assoc]
        simp only [List.length_append, List.length_cons, List.length_nil, List.cons_append,
          List.nil_append]
        congr 4

end Verif.Markdown

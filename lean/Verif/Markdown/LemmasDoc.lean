import Verif.Markdown.LemmasList

/-!
# Documents of paragraphs, headings, code and lists
-/

namespace Verif.Markdown

open Verif Verif.Markdown.Spec

/-- The nodes of blocks, the first at position `b`. -/
inductive DocNodes : Nat → List Sect → List BNode → Prop where
  | nil {b} : DocNodes b [] []
  | flat {b p ss x} : DocNodes (b + 1) ss x → DocNodes b (.flat p :: ss) (nodeOf p :: x)
  | list {b start punc loose c its ss x} : DocNodes (b + 1 + 2 * its.length) ss x →
      DocNodes b (.list start punc loose (its.map Prod.snd) :: ss)
        (listNode start punc loose c :: (itemNodes b (b + 1) its ++ x))

/-- What the parser does with the first line of a block depends on the state only in so far. -/
def Prep (st : St) (ns : List BNode) (pend : Bool) (ls : List (List Byte)) : Sect → Prop
  | .flat p => ∃ leaf b, parseLines st ls = parseLines (fst ns leaf b) ls ∧ Between [p] ns leaf b pend
  | .list start punc _ _ => ∀ k l t c, ls.head? = some l → ItemLine start punc k c l t →
      parseLine st l = some (ist ns (listNode start punc false false) [] c [t] true false)

theorem matchExisting_fst (ns : List BNode) (leaf : Option Nat) (b k : Nat) {c : Byte} {r : List Byte}
    (hc : Str.isWhite c = false) : matchExisting (fst ns leaf b) (List.replicate k 32 ++ c :: r) =
      some (⟨root :: ns, [0], leaf, b, false⟩, ⟨c :: r, 0, k⟩, true) := by
  have hm : matchLoop (fst ns leaf b).nodes ((fst ns leaf b).stack.drop 1) 1
      ⟨List.replicate k 32 ++ c :: r, 0, 0⟩ = some (1, ⟨c :: r, 0, k⟩) := by
    rw [← lc_spaces k hc]; rfl
  have htr : LC.trimmed ⟨c :: r, 0, k⟩ ≠ [] := by
    intro e
    have := white_of_trim e c (by simp)
    rw [hc] at this; cases this
  unfold matchExisting
  rw [hm]
  dsimp only
  rw [if_neg htr]
  rfl

theorem matchExisting_ist (pre : List BNode) (n : BNode) (body : List BNode) {lv : Nat}
    (ts : List (List Byte)) (leaf ch : Bool) {k : Nat} (hk : k < lv) {c : Byte} {r : List Byte}
    (hc : Str.isWhite c = false) :
    matchExisting (ist pre n body lv ts leaf ch) (List.replicate k 32 ++ c :: r) =
      some (⟨istNodes pre n body lv ts, [0], none, 0, ch⟩, ⟨c :: r, 0, k⟩, true) := by
  have hm : matchLoop (ist pre n body lv ts leaf ch).nodes ((ist pre n body lv ts leaf ch).stack.drop 1) 1
      ⟨List.replicate k 32 ++ c :: r, 0, 0⟩ = some (1, ⟨c :: r, 0, k⟩) := by
    have := matchLoop_ist pre n body lv ts (k := k) (r := r) hc
    rw [if_neg (by omega)] at this
    exact this
  have htr : LC.trimmed ⟨c :: r, 0, k⟩ ≠ [] := by
    intro e
    have := white_of_trim e c (by simp)
    rw [hc] at this; cases this
  unfold matchExisting
  rw [hm]
  dsimp only
  rw [if_neg htr]
  unfold St.truncate
  rw [if_pos (by simp [ist])]
  rfl

/-- A line of text that is not indented, after a list. -/
theorem parseLine_leave (pre : List BNode) (n : BNode) (body : List BNode) {lv : Nat} (hlv : 0 < lv)
    (ts : List (List Byte)) (leaf ch : Bool) {c : Byte} {r : List Byte} (hc : Str.isWhite c = false)
    (hc' : c ∉ lit ">*-+0123456789") :
    parseLine (ist pre n body lv ts leaf ch) (c :: r) =
      parseLine (fst (istNodes pre n body lv ts).tail none 0) (c :: r) := by
  have h1 := matchExisting_ist pre n body ts leaf ch (k := 0) hlv (r := r) hc
  have h2 := matchExisting_fst (istNodes pre n body lv ts).tail none 0 0 (r := r) hc
  rw [List.replicate_zero, List.nil_append] at h1 h2
  have htr : LC.trimmed ⟨c :: r, 0, 0⟩ ≠ [] := by
    intro e
    have := white_of_trim e c (by simp)
    rw [hc] at this; cases this
  unfold parseLine
  rw [h1, h2]
  dsimp only
  unfold parseNewMarkers
  rw [if_neg htr, if_neg htr, markerLoop_none rfl (Or.inr ⟨hc, hc'⟩), markerLoop_none rfl (Or.inr ⟨hc, hc'⟩)]
  dsimp only
  unfold parseParagraphText
  rw [if_neg (by simp [LC.inner]), if_pos htr, if_neg (by simp [LC.inner]), if_pos htr]
  cases ch <;> rfl

theorem lastKid_flat (ns : List BNode) (p : Piece) (punc : Byte) : ∀ i,
    (childrenOf (root :: (ns ++ [nodeOf p])) 0).getLast? = some i →
    ∃ n, (root :: (ns ++ [nodeOf p]))[i]? = some n ∧ ¬ (n.type = .list ∧ n.punc = punc) := by
  intro i hi
  rw [lastKid (by cases p <;> rfl) (by intro x hx; cases hx)] at hi
  cases hi
  refine ⟨nodeOf p, by simp, ?_⟩
  cases p <;> simp [nodeOf]

theorem itemLine_col {num : Int} {punc : Byte} {k col : Nat} {l t : List Byte}
    (h : ItemLine num punc k col l t) : 0 < col := by
  obtain ⟨m, _, _, _, _, _, _, _, _, _, rfl⟩ := h
  omega

theorem listLines_col {punc : Byte} {start : Int} {k col : Nat} {loose : Bool}
    {ls : List (List Byte)} {items : List (List (List Byte))}
    (h : ListLines punc start k col loose ls items) : 0 < col := by
  induction h with
  | one h => cases h with | mk h _ => exact itemLine_col h
  | more _ _ _ _ ih => exact ih

theorem replicate_head {k : Nat} {s r : List Byte} {c : Byte} (h : List.replicate k 32 ++ s = c :: r)
    (hc : Str.isWhite c = false) : k = 0 := by
  cases k with
  | zero => rfl
  | succ k =>
    rw [List.replicate_succ] at h
    injection h with h _
    subst h
    cases hc

theorem doc_first {ls : List (List Byte)} {q : Sect} {qs : List Sect} (h : Doc ls (q :: qs)) :
    ∃ pl rest, ls = pl ++ rest ∧ SectLines q pl := by
  cases h with
  | last h _ => exact ⟨_, _, rfl, h⟩
  | cons h _ _ _ => exact ⟨_, _, List.append_assoc _ _ _, h⟩

theorem textOf_first {p : Piece} {pl : List (List Byte)} (h : PieceLines p pl) {l : List Byte}
    {ls : List (List Byte)} {c : Byte} {r : List Byte} (hl : pl = l :: ls) (hc : l = c :: r)
    (hw : Str.isWhite c = false) : c ∉ lit ">*-+0123456789" ∧ p.isCode = false := by
  subst hc
  cases h with
  | para hne he =>
    cases he with
    | nil => exact absurd rfl hne
    | cons h _ =>
      cases hl
      obtain ⟨k, w, d, _, _, h1, h2, h3, h4, _⟩ := h
      rw [List.append_assoc] at h1
      obtain rfl := replicate_head h1.symm hw
      rename_i t _ _ _ _ _
      cases t with
      | nil => cases h2
      | cons e t =>
        cases h2
        injection h1 with h1 _
        subst h1
        exact ⟨fun h => h4 (List.mem_cons_of_mem _ h), rfl⟩
  | heading h =>
    cases hl
    obtain ⟨k, s, _, h1, h2, h3, _⟩ := h
    rw [List.append_assoc] at h3
    obtain rfl := replicate_head h3.symm hw
    obtain ⟨i, hi⟩ : ∃ i, _ = i + 1 := ⟨_ - 1, (Nat.sub_add_cancel h1).symm⟩
    rw [hi, List.replicate_succ] at h3
    injection h3 with h3 _
    subst h3
    exact ⟨by decide, rfl⟩
  | code h _ =>
    cases hl
    exfalso
    obtain ⟨w, h1, h2, h3, _⟩ := h
    cases w with
    | nil => cases h3
    | cons d w =>
      injection h1 with h1 _
      subst h1
      rcases h2 c (by simp) with rfl | rfl <;> cases hw

/-- The next block can be read after a list. -/
theorem prep_list {pre : List BNode} {start : Int} {punc : Byte} {loose : Bool} {body : List BNode}
    {lv : Nat} {ts : List (List Byte)} {c leaf ch : Bool} (hb : NoZero body) (hlv : 0 < lv) {q : Sect}
    {qs : List Sect} {ls : List (List Byte)} {items : List (List (List Byte))} {nb : Nat}
    (ha : Apart (.list start punc loose items) nb q ls) (hd : Doc ls (q :: qs)) :
    Prep (ist pre (listNode start punc loose c) body lv ts leaf ch)
      (istNodes pre (listNode start punc loose c) body lv ts).tail false ls q := by
  obtain ⟨⟨l, ls', d, r, rfl, rfl, hw⟩, ha⟩ := ha
  obtain ⟨pl, rest, he, hp⟩ := doc_first hd
  cases q with
  | flat p =>
    cases hp with
    | flat hp =>
      cases pl with
      | nil =>
        exfalso
        cases hp with
        | para h _ => exact h rfl
      | cons l' pl =>
        injection he with he1 he2
        subst he1
        obtain ⟨h1, h2⟩ := textOf_first hp rfl rfl hw
        refine ⟨none, 0, ?_, Between.none⟩
        rw [parseLines, parseLines, parseLine_leave _ _ _ hlv _ _ _ hw h1]
  | list start' punc' loose' items' =>
    intro k l t c' hl hi
    cases hl
    have hk : k = 0 := by
      obtain ⟨m, j, w, _, _, _, _, _, _, h1, _⟩ := hi
      rw [List.append_assoc, List.append_assoc, List.append_assoc] at h1
      exact replicate_head h1.symm hw
    subst hk
    refine parseLine_newItem hi (leaf := none) (b := 0) (ch := ch) (fun c r hc => ?_)
      (by intro h; cases h) ?_
    · exact matchExisting_ist pre _ body ts leaf ch hlv hc
    · intro i hi
      have hb' := noZero_pair hb pre.length lv (pre.length + body.length) ts
      have : (childrenOf (istNodes pre (listNode start punc loose c) body lv ts) 0).getLast? =
          some (pre.length + 1) := lastKid rfl hb'
      have hi' : (childrenOf (istNodes pre (listNode start punc loose c) body lv ts) 0).getLast? =
        some i := hi
      rw [this] at hi'
      cases hi'
      refine ⟨_, ist_list pre (listNode start punc loose c) body lv ts, ?_⟩
      rintro ⟨_, h2⟩
      exact ha h2.symm

/-- The next list can be read after a block that is no list. -/
theorem prep_fst {ns : List BNode} {p : Piece} {leaf : Option Nat} {b : Nat} {start : Int}
    (hlf : leaf.isSome = true → start = -1 ∨ start = 1) (punc : Byte) (ls : List (List Byte)) :
    ∀ k l t c, ls.head? = some l → ItemLine start punc k c l t →
      parseLine (fst (ns ++ [nodeOf p]) leaf b) l =
        some (ist (ns ++ [nodeOf p]) (listNode start punc false false) [] c [t] true false) := by
  intro k l t c _ hi
  exact parseLine_newItem hi (fun c r hc => matchExisting_fst _ _ _ k hc) hlf (lastKid_flat ns p punc)

theorem itemNodes_length (li : Nat) : ∀ (b : Nat) (its : List (Nat × List (List Byte))),
    (itemNodes li b its).length = 2 * its.length
  | _, [] => rfl
  | b, (lv, ts) :: its => by
    rw [itemNodes, List.length_cons, List.length_cons, itemNodes_length li, List.length_cons]; omega

/-- Is there code after which there were only headings? -/
def pendAfter (pend : Bool) : Sect → Bool
  | .flat (.heading _ _) => pend
  | .flat (.code _) => true
  | _ => false

/-- A block and the blank lines after it. -/
theorem parseLines_sect {st : St} {ns : List BNode} {pend : Bool} {p : Sect} {pl bl : List (List Byte)}
    {rest : List (List Byte)} (hp : SectLines p pl) (hbl : ∀ b ∈ bl, Short b)
    (hr : Prep st ns pend (pl ++ bl ++ rest) p) :
    (∃ ls, p = .flat (.code ls) ∧ pend = true ∧ parseLines st (pl ++ bl ++ rest) = none) ∨
    ((∀ ls, p = .flat (.code ls) → pend = false) ∧
      ∃ st' x, parseLines st (pl ++ bl ++ rest) = parseLines st' rest ∧
      st'.nodes = root :: (ns ++ x) ∧
      (∀ ss y, DocNodes (ns.length + 1 + x.length) ss y → DocNodes (ns.length + 1) (p :: ss) (x ++ y)) ∧
      ∀ q qs, Apart p bl.length q rest → Doc rest (q :: qs) →
        Prep st' (ns ++ x) (pendAfter pend p) rest q) := by
  cases hp with
  | @flat p _ hp =>
    obtain ⟨leaf, b, he, hbt⟩ := hr
    rw [he, List.append_assoc, parseLines_append, parseLines_piece hbt hp]
    have hdn : ∀ ss y, DocNodes (ns.length + 1 + [nodeOf p].length) ss y →
        DocNodes (ns.length + 1) (.flat p :: ss) ([nodeOf p] ++ y) := fun ss y h => .flat h
    cases p with
    | para ts =>
      refine Or.inr ⟨by simp, ?_⟩
      cases bl with
      | nil =>
        refine ⟨_, [nodeOf (.para ts)], rfl, rfl, hdn, ?_⟩
        intro q qs ha _
        cases q with
        | flat q => exact absurd rfl ha.1
        | list start punc loose items =>
          exact prep_fst (fun _ => ha.resolve_left (by simp)) punc rest
      | cons bb bl =>
        have hlast : isType (root :: (ns ++ [nodeOf (.para ts)])) .para (ns.length + 1) = true :=
          (isType_last _ _ _).trans rfl
        refine ⟨fst (ns ++ [nodeOf (.para ts)]) none 0, [nodeOf (.para ts)], ?_, rfl, hdn, ?_⟩
        · rw [Option.bind_some, List.cons_append, parseLines_one (parseLine_short (hbl bb (by simp))
            (Or.inr (Or.inl ⟨_, rfl, hlast, rfl, rfl, rfl⟩))), parseLines_append,
            parseLines_none fun x hx => hbl x (List.mem_cons_of_mem _ hx)]
          rfl
        · intro q qs ha _
          cases q with
          | flat q => exact ⟨none, 0, rfl, Between.none⟩
          | list start punc loose items => exact prep_fst (by simp) punc rest
    | heading k ts =>
      refine Or.inr ⟨by simp, fst (ns ++ [nodeOf (.heading k ts)]) none b, [nodeOf (.heading k ts)],
        ?_, rfl, hdn, ?_⟩
      · rw [Option.bind_some, parseLines_append, parseLines_none hbl]; rfl
      · intro q qs ha _
        cases q with
        | flat q =>
          refine ⟨none, b, rfl, ?_⟩
          have : decide (b ≠ 0) = pend := by
            cases hbt with
            | none => rfl
            | code _ h2 => simp; omega
          rw [← this]
          exact Between.none
        | list start punc loose items => exact prep_fst (by simp) punc rest
    | code rs =>
      cases pend with
      | true => exact Or.inl ⟨rs, rfl, rfl, rfl⟩
      | false =>
        refine Or.inr ⟨by simp, fst (ns ++ [nodeOf (.code rs)]) (some (ns.length + 1)) (0 + bl.length),
          [nodeOf (.code rs)], ?_, rfl, hdn, ?_⟩
        · dsimp only
          rw [if_neg (by simp), Option.bind_some, parseLines_append, parseLines_blankCode hbl]; rfl
        · intro q qs ha _
          cases q with
          | flat q =>
            refine ⟨_, _, rfl, Between.code ?_ (by have := ha.1; omega)⟩
            intro p hp
            cases hp
            cases hq : q.isCode with
            | false => rfl
            | true => exact absurd ⟨rfl, hq⟩ ha.2
          | list start punc loose items => exact prep_fst (fun _ => ha) punc rest
  | @list start punc k col loose _ items hp =>
    have hne : ∃ l ls, pl = l :: ls := by
      cases hp with
      | one h => cases h with | mk _ _ => exact ⟨_, _, rfl⟩
      | more h _ _ _ => cases h with | mk _ _ => exact ⟨_, _, rfl⟩
    obtain ⟨body, ts, its, h1, h2, h3, h4⟩ := parseLines_list hp (st := st) (pre := ns)
      (n := listNode start punc false false) (body := []) rfl rfl rfl rfl Iff.rfl
      (by intro x hx; cases hx) (fun l t c hl hi => hr k l t c (by
        obtain ⟨l', ls', rfl⟩ := hne
        exact hl) hi)
    refine Or.inr ⟨by simp, ist ns (listNode start punc loose (!bl.isEmpty && !loose)) body col ts
      bl.isEmpty (!bl.isEmpty && !loose), listNode start punc loose (!bl.isEmpty && !loose) ::
        (body ++ [itemNode (ns.length + 1) col, textNode (ns.length + body.length + 2) ts]), ?_, rfl, ?_, ?_⟩
    · rw [List.append_assoc, parseLines_append, h1, Option.bind_some, parseLines_append]
      have := parseLines_itemBlank (pre := ns) (n := listNode start punc loose false) (body := body)
        (lv := col) (ts := ts) rfl rfl hbl
      have e : ({ listNode start punc false false with loose := (listNode start punc false false).loose || loose } :
          BNode) = listNode start punc loose false := by
        unfold listNode; simp
      rw [e, this]
      rfl
    · intro ss y hy
      rw [h4, List.nil_append]
      rw [h4, List.nil_append, List.length_cons, itemNodes_length] at hy
      rw [← h2]
      exact DocNodes.list (by
        rw [show ns.length + 1 + 1 + 2 * its.length = ns.length + 1 + (2 * its.length + 1) by omega]
        exact hy)
    · intro q qs ha hd
      exact prep_list h3 (listLines_col hp) ha hd

theorem parseLines_doc {ls : List (List Byte)} {ps : List Sect} (h : Doc ls ps) :
    ∀ {p : Sect} {ss : List Sect} {st : St} {ns : List BNode} {pend : Bool}, ps = p :: ss →
      Prep st ns pend ls p →
      (codeAfter pend ps = true ∧ parseLines st ls = none) ∨
      (codeAfter pend ps = false ∧ ∃ st' x, parseLines st ls = some st' ∧ st'.nodes = root :: (ns ++ x) ∧
        DocNodes (ns.length + 1) ps x) := by
  induction h with
  | nil => intro p ss st ns pend h; cases h
  | @last p pl bl hp hbl =>
    intro p' ss st ns pend h hr
    cases h
    rw [← List.append_nil (pl ++ bl)] at hr ⊢
    rcases parseLines_sect hp hbl hr with ⟨cs, rfl, rfl, h1⟩ | ⟨hc, st', x, h1, h2, h3, _⟩
    · exact Or.inl ⟨rfl, h1⟩
    · refine Or.inr ⟨?_, st', x, h1, h2, ?_⟩
      · cases p with
        | list _ _ _ _ => rfl
        | flat p =>
          cases p with
          | para _ => rfl
          | heading _ _ => rfl
          | code cs => rw [hc cs rfl]; rfl
      · have := h3 [] [] .nil
        rwa [List.append_nil] at this
  | @cons p pl bl q ls qs hp hbl ha hd ih =>
    intro p' ss st ns pend h hr
    cases h
    rcases parseLines_sect hp hbl hr with ⟨cs, rfl, rfl, h1⟩ | ⟨hc, st', x, h1, h2, h3, h4⟩
    · exact Or.inl ⟨rfl, h1⟩
    · have hc' : codeAfter pend (p :: q :: qs) = codeAfter (pendAfter pend p) (q :: qs) := by
        cases p with
        | list _ _ _ _ => rfl
        | flat p =>
          cases p with
          | para _ => rfl
          | heading _ _ => rfl
          | code cs => rw [hc cs rfl]; rfl
      rw [hc', h1]
      rcases ih rfl (h4 q qs ha hd) with h5 | ⟨h5, st'', y, h6, h7, h8⟩
      · exact Or.inl h5
      · refine Or.inr ⟨h5, st'', x ++ y, h6, by rw [h7, List.append_assoc], ?_⟩
        rw [List.length_append] at h8
        exact h3 _ _ (by rwa [show ns.length + 1 + x.length = ns.length + x.length + 1 by omega])

/-! ## The tree -/

/-- The finished block. -/
def blockOfSect : Sect → Option Block
  | .flat p => blockOf p
  | .list start _ loose items =>
    (items.mapM (fun ts => (expandInlineElements ts).map (fun es => Block.item [.para es]))).map
      (.list start loose)

theorem itemNodes_parents (li : Nat) : ∀ (b : Nat) (its : List (Nat × List (List Byte))), ∀ n ∈ itemNodes li b its,
    n.parent = some li ∨ ∃ q, n.parent = some q ∧ b ≤ q ∧ q < b + 2 * its.length
  | _, [], n, hn => by cases hn
  | b, (lv, ts) :: its, n, hn => by
    rw [itemNodes] at hn
    rw [List.length_cons]
    rcases List.mem_cons.mp hn with rfl | hn
    · exact Or.inl rfl
    · rcases List.mem_cons.mp hn with rfl | hn
      · exact Or.inr ⟨b, rfl, by omega, by omega⟩
      · rcases itemNodes_parents li (b + 2) its n hn with h | ⟨q, h1, h2, h3⟩
        · exact Or.inl h
        · exact Or.inr ⟨q, h1, by omega, by omega⟩

theorem docNodes_parents {b : Nat} {ss : List Sect} {x : List BNode} (h : DocNodes b ss x) : ∀ n ∈ x,
    n.parent = some 0 ∨ ∃ q, n.parent = some q ∧ b ≤ q := by
  induction h with
  | nil => intro n hn; cases hn
  | @flat b p ss x _ ih =>
    intro n hn
    rcases List.mem_cons.mp hn with rfl | hn
    · left; cases p <;> rfl
    · rcases ih n hn with h | ⟨q, h1, h2⟩
      · exact Or.inl h
      · exact Or.inr ⟨q, h1, by omega⟩
  | @list b start punc loose c its ss x _ ih =>
    intro n hn
    rcases List.mem_cons.mp hn with rfl | hn
    · left; rfl
    · rcases List.mem_append.mp hn with hn | hn
      · rcases itemNodes_parents _ _ _ n hn with h | ⟨q, h1, h2, _⟩
        · exact Or.inr ⟨b, h, Nat.le_refl _⟩
        · exact Or.inr ⟨q, h1, by omega⟩
      · rcases ih n hn with h | ⟨q, h1, h2⟩
        · exact Or.inl h
        · exact Or.inr ⟨q, h1, by omega⟩

/-- The parents of the nodes before position `b` are before it. -/
def Below (pre : List BNode) : Prop := ∀ n ∈ pre, ∀ q, n.parent = some q → q < pre.length

theorem kids_cons_self {p b : Nat} {n : BNode} {ns : List BNode} (h : n.parent = some p) :
    kids p b (n :: ns) = b :: kids p (b + 1) ns := by
  rw [kids, if_pos h]

theorem kids_cons_other {p b : Nat} {n : BNode} {ns : List BNode} (h : n.parent ≠ some p) :
    kids p b (n :: ns) = kids p (b + 1) ns := by
  rw [kids, if_neg h]

/-- The children of a list. -/
theorem kids_items (li : Nat) : ∀ (b : Nat) (its : List (Nat × List (List Byte))), li < b →
    kids li b (itemNodes li b its) = (List.range its.length).map (fun i => b + 2 * i)
  | _, [], _ => rfl
  | b, (lv, ts) :: its, h => by
    rw [itemNodes, kids_cons_self rfl, kids_cons_other (by simp [textNode]; omega),
      kids_items li (b + 2) its (by omega), List.length_cons, List.range_succ_eq_map, List.map_cons,
      List.map_map]
    congr 1
    apply List.map_congr_left
    intro i _
    simp only [Function.comp, Nat.succ_eq_add_one]
    omega

theorem itemNodes_append (li : Nat) : ∀ (b : Nat) (x y : List (Nat × List (List Byte))),
    itemNodes li b (x ++ y) = itemNodes li b x ++ itemNodes li (b + 2 * x.length) y
  | b, [], y => rfl
  | b, (lv, ts) :: x, y => by
    rw [List.cons_append, itemNodes, itemNodes, itemNodes_append li (b + 2) x y, List.length_cons]
    simp only [List.cons_append]
    congr 4
    omega

/-- The paragraph of an item. -/
theorem doInlines_item {all pre : List BNode} {n : BNode} {x : List BNode} {b lv : Nat} {f : Nat}
    {its its' : List (Nat × List (List Byte))} {ts : List (List Byte)}
    (ha : all = pre ++ n :: (itemNodes b (b + 1) (its ++ (lv, ts) :: its') ++ x)) (hb : b = pre.length)
    (hpre : Below pre) (hn : n.parent = some 0) (hb0 : 0 < b)
    (hx : ∀ n ∈ x, n.parent = some 0 ∨
      ∃ q, n.parent = some q ∧ b + 1 + 2 * (its ++ (lv, ts) :: its').length ≤ q) :
    doInlines all (f + 2) (b + 1 + 2 * its.length) =
      (expandInlineElements ts).map (fun es => Block.item [.para es]) := by
  rw [itemNodes_append, itemNodes] at ha
  have hs : all = (pre ++ n :: itemNodes b (b + 1) its) ++ itemNode b lv ::
      textNode (b + 1 + 2 * its.length) ts ::
      (itemNodes b (b + 1 + 2 * its.length + 2) its' ++ x) := by
    rw [ha]; simp
  have hl : (pre ++ n :: itemNodes b (b + 1) its).length = b + 1 + 2 * its.length := by
    simp [itemNodes_length]; omega
  have h1 : all[b + 1 + 2 * its.length]? = some (itemNode b lv) := by
    rw [hs, ← hl, List.getElem?_append_right (Nat.le_refl _), Nat.sub_self]; rfl
  have h2 : all[b + 1 + 2 * its.length + 1]? = some (textNode (b + 1 + 2 * its.length) ts) := by
    rw [hs, ← hl, List.getElem?_append_right (by omega), Nat.add_sub_cancel_left]; rfl
  have hk : childrenOf all (b + 1 + 2 * its.length) = [b + 1 + 2 * its.length + 1] := by
    rw [childrenOf_kids, hs, kids_append, kids_none, List.nil_append, Nat.zero_add, hl,
      kids_cons_other (by simp [itemNode]; omega), kids_cons_self rfl, kids_none]
    · intro m hm
      rcases List.mem_append.mp hm with hm | hm
      · rcases itemNodes_parents _ _ _ m hm with h | ⟨q, h, h', _⟩
        · rw [h]; intro e; injection e; omega
        · rw [h]; intro e; injection e; omega
      · rcases hx m hm with h | ⟨q, h, h'⟩
        · rw [h]; intro e; injection e; omega
        · rw [List.length_append, List.length_cons] at h'
          rw [h]; intro e; injection e; omega
    · intro m hm e
      rcases List.mem_append.mp hm with hm | hm
      · have := hpre m hm _ e; omega
      · rcases List.mem_cons.mp hm with rfl | hm
        · rw [hn] at e; injection e; omega
        · rcases itemNodes_parents _ _ _ m hm with h | ⟨q, h, h', h''⟩
          · rw [h] at e; injection e; omega
          · rw [h] at e; injection e; omega
  rw [doInlines, h1]
  dsimp only [itemNode]
  rw [if_neg (by simp), hk, List.mapM_cons, List.mapM_nil, doInlines, h2]
  dsimp only [textNode]
  cases expandInlineElements ts <;> rfl

theorem mapM_items {all pre : List BNode} {n : BNode} {x : List BNode} {b : Nat} {f : Nat}
    (hb : b = pre.length) (hpre : Below pre) (hn : n.parent = some 0) (hb0 : 0 < b) :
    ∀ (its' its : List (Nat × List (List Byte))),
    all = pre ++ n :: (itemNodes b (b + 1) (its ++ its') ++ x) →
    (∀ n ∈ x, n.parent = some 0 ∨ ∃ q, n.parent = some q ∧ b + 1 + 2 * (its ++ its').length ≤ q) →
    ((List.range its'.length).map (fun i => b + 1 + 2 * its.length + 2 * i)).mapM (doInlines all (f + 2)) =
      (its'.map Prod.snd).mapM (fun ts => (expandInlineElements ts).map (fun es => Block.item [.para es]))
  | [], _, _, _ => rfl
  | (lv, ts) :: its', its, ha, hx => by
    have ih := mapM_items (all := all) (x := x) (f := f) hb hpre hn hb0 its' (its ++ [(lv, ts)]) (by rw [ha]; simp)
      (by intro m hm; have := hx m hm; simpa using this)
    rw [List.length_cons, List.range_succ_eq_map, List.map_cons, List.mapM_cons,
      show b + 1 + 2 * its.length + 2 * 0 = b + 1 + 2 * its.length by omega,
      doInlines_item ha hb hpre hn hb0 hx, List.map_cons, List.mapM_cons, ← ih, List.map_map]
    congr 1
    funext b'
    congr 2
    apply List.map_congr_left
    intro i _
    simp only [Function.comp, Nat.succ_eq_add_one, List.length_append, List.length_cons, List.length_nil]
    omega

theorem mapM_doc {b : Nat} {ss : List Sect} {x : List BNode} (h : DocNodes b ss x) :
    ∀ {all pre : List BNode}, all = pre ++ x → b = pre.length → Below pre → 0 < b →
    (kids 0 b x).mapM (doInlines all all.length) = ss.mapM blockOfSect := by
  induction h with
  | nil => intros; rfl
  | @flat b p ss x _ ih =>
    intro all pre ha hb hpre hb0
    have hp0 : (nodeOf p).parent = some 0 := by cases p <;> rfl
    rw [kids_cons_self hp0, List.mapM_cons, List.mapM_cons]
    have h1 : all[b]? = some (nodeOf p) := by rw [ha, hb]; simp
    have h2 : doInlines all all.length b = blockOf p := by
      obtain ⟨f, hf⟩ : ∃ f, all.length = f + 1 := ⟨all.length - 1, by rw [ha]; simp; omega⟩
      rw [hf, doInlines, h1]
      cases p <;> rfl
    rw [h2, ih (pre := pre ++ [nodeOf p]) (by rw [ha]; simp) (by rw [hb]; simp) ?_ (by omega)]
    · rfl
    · intro n hn q hq
      rw [List.length_append]
      rcases List.mem_append.mp hn with hn | hn
      · have := hpre n hn q hq; simp; omega
      · rw [List.mem_singleton.mp hn, hp0] at hq
        injection hq; simp; omega
  | @list b start punc loose c its ss x hd ih =>
    intro all pre ha hb hpre hb0
    have hx := docNodes_parents hd
    have hkid : kids 0 b (listNode start punc loose c :: (itemNodes b (b + 1) its ++ x)) =
        b :: kids 0 (b + 1 + 2 * its.length) x := by
      rw [kids_cons_self rfl, kids_append, itemNodes_length, kids_none, List.nil_append]
      intro m hm e
      rcases itemNodes_parents _ _ _ m hm with h | ⟨q, h, h', h''⟩
      · rw [h] at e; injection e; omega
      · rw [h] at e; injection e; omega
    have h1 : all[b]? = some (listNode start punc loose c) := by rw [ha, hb]; simp
    have h2 : doInlines all all.length b =
        blockOfSect (.list start punc loose (its.map Prod.snd)) := by
      have hkl : childrenOf all b = (List.range its.length).map (fun i => b + 1 + 2 * i) := by
        rw [childrenOf_kids, ha, kids_append, kids_none, List.nil_append, Nat.zero_add, ← hb,
          kids_cons_other (by simp [listNode]; omega), kids_append, kids_items b (b + 1) its (by omega),
          itemNodes_length, kids_none, List.append_nil]
        · intro m hm e
          rcases hx m hm with h | ⟨q, h, h'⟩
          · rw [h] at e; injection e; omega
          · rw [h] at e; injection e; omega
        · intro m hm e
          have := hpre m hm _ e; omega
      cases its with
      | nil =>
        obtain ⟨f, hf⟩ : ∃ f, all.length = f + 1 := ⟨all.length - 1, by rw [ha]; simp; omega⟩
        rw [hf, doInlines, h1]
        dsimp only [listNode]
        rw [if_neg (by simp), hkl]
        rfl
      | cons it its =>
        obtain ⟨f, hf⟩ : ∃ f, all.length = f + 3 := ⟨all.length - 3, by
          rw [ha, List.length_append, List.length_cons, List.length_append, itemNodes_length,
            List.length_cons]; omega⟩
        rw [hf, doInlines, h1]
        dsimp only [listNode]
        rw [if_neg (by simp), hkl]
        have := mapM_items (all := all) (x := x) (f := f) hb hpre (n := listNode start punc loose c) rfl hb0
          (it :: its) [] ha hx
        simp only [List.length_nil, Nat.mul_zero, Nat.add_zero] at this
        rw [this]
        rfl
    rw [hkid, List.mapM_cons, List.mapM_cons, h2,
      ih (pre := pre ++ listNode start punc loose c :: itemNodes b (b + 1) its) (by rw [ha]; simp)
        (by rw [hb]; simp [itemNodes_length]; omega) ?_ (by omega)]
    intro n hn q hq
    have hlen : (pre ++ listNode start punc loose c :: itemNodes b (b + 1) its).length =
        b + 1 + 2 * its.length := by simp [itemNodes_length]; omega
    rw [hlen]
    rcases List.mem_append.mp hn with hn | hn
    · have := hpre n hn q hq; omega
    · rcases List.mem_cons.mp hn with rfl | hn
      · injection hq; omega
      · rcases itemNodes_parents _ _ _ n hn with h | ⟨q', h, h', h''⟩
        · rw [h] at hq; injection hq; omega
        · rw [h] at hq; injection hq; omega

/-- The first block of a document can be read. -/
theorem prep_init (ls : List (List Byte)) (p : Sect) : Prep (fst [] none 0) [] false ls p := by
  cases p with
  | flat p => exact ⟨none, 0, rfl, Between.none⟩
  | list start punc loose items =>
    intro k l t c _ hi
    refine parseLine_newItem hi (fun c r hc => matchExisting_fst _ _ _ k hc) (by simp) ?_
    intro i hi
    cases hi

theorem parse_doc {src : List Byte} {bl ls : List (List Byte)} {ps : List Sect} (hl : LinesOf src (bl ++ ls))
    (hb : ∀ b ∈ bl, Short b) (h : Doc ls ps) :
    parse src = if codeAfter false ps then none else ps.mapM blockOfSect := by
  unfold parse parseBlocks
  rw [linesOf_split hl, show St.init = fst [] none 0 from rfl, parseLines_append, parseLines_none hb,
    Option.bind_some]
  cases ps with
  | nil =>
    cases h
    rfl
  | cons p ps =>
    rcases parseLines_doc h rfl (prep_init ls p) with ⟨h1, h2⟩ | ⟨h1, st, x, h2, h3, h4⟩
    · rw [h2, if_pos h1]; rfl
    · rw [h2, if_neg (by simp [h1])]
      dsimp only [Option.map_some]
      rw [h3, List.nil_append, childrenOf_kids, kids_cons_other (by simp [root])]
      refine mapM_doc h4 (pre := [root]) rfl rfl ?_ (by simp)
      intro n hn q hq
      rw [List.mem_singleton.mp hn] at hq
      cases hq

end Verif.Markdown

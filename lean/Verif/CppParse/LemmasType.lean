import Verif.CppParse.LemmasEat
import Verif.CppParse.SpecTree
/-! # The parser for C++ — lemmas: names and types -/
namespace Verif.CppParse
open Verif Verif.Cpp

theorem seen_of {t : Token} {x : TT} (h : t.type = x) (hx : skipped x = false) : skipped t.type = false := by
  rw [h]; exact hx

/-- A name is not one of the given words. -/
theorem Name.ne {t : Token} (h : Name t) {w : List Byte} (hw : w ∈ reserved) : t.text ≠ w :=
  fun e => h.2 (e ▸ hw)

theorem Name.notIn {t : Token} (h : Name t) {l : List (List Byte)} (hl : ∀ w ∈ l, w ∈ reserved) : t.text ∉ l :=
  fun m => h.2 (hl _ m)

theorem Name.seen {t : Token} (h : Name t) : skipped t.type = false := seen_of h.1 rfl

/-- The token ends a name: it does not continue it. -/
structure NameEnd (f : Token) : Prop where
  seen : skipped f.type = false
  colons : f.type ≠ .doubleColon
  angle : f.type ≠ .openAngle

section
variable {k : Nat} {pv : Option Token} {l : List Token}

/-- The start of the loop over the parts of a name, for a part without arguments. -/
theorem nested_ident {t f : Token} {acc : List NComp} {b : List NComp} {k' : Nat} {pv' : Option Token}
    {l' : List Token} (ht : Name t) (hf : NameEnd f ∨ f.type = .doubleColon)
    (h : Eats (fun x => sepStep x acc (.ident t noTok noTok [])) (k + 1) none (f :: l) b k' pv' l') :
    Eats (fun x => x (.nested acc)) k pv (t :: f :: l) b k' pv' l' := by
  have hv : skipped f.type = false := by
    rcases hf with h | h
    · exact h.seen
    · rw [h]; rfl
  have ha : f.type ≠ .openAngle := by
    rcases hf with h | h
    · exact h.angle
    · rw [h]; simp
  refine Eats.call (c := .nested acc) ?_
  show Eats (fun x => nestedBody x acc) _ _ _ _ _ _ _
  unfold nestedBody
  refine (Eats.read ht.seen).bind ?_
  refine Eats.ifn (by simp [ht.1]) ?_
  refine Eats.ifn (ht.notIn (by decide)) ?_
  refine Eats.ifn (ht.ne (by decide)) ?_
  refine (Eats.read hv).bind ?_
  refine Eats.ifn ha ?_
  exact Eats.push.bind h

/-- The same for a part with arguments. -/
theorem nested_tmpl {t o c : Token} {args : List TArg} {acc : List NComp} {b : List NComp} {k' : Nat}
    {pv' : Option Token} {l' w : List Token} (ht : Name t) (ho : o.type = .openAngle)
    (ha : Eats (fun x => x (.targs [])) (k + 2) (some o) (w ++ l) (args, some c) 1 none l)
    (h : Eats (fun x => sepStep x acc (.ident t o c args)) 1 none l b k' pv' l') :
    Eats (fun x => x (.nested acc)) k pv (t :: o :: (w ++ l)) b k' pv' l' := by
  refine Eats.call (c := .nested acc) ?_
  show Eats (fun x => nestedBody x acc) _ _ _ _ _ _ _
  unfold nestedBody
  refine (Eats.read ht.seen).bind ?_
  refine Eats.ifn (by simp [ht.1]) ?_
  refine Eats.ifn (ht.notIn (by decide)) ?_
  refine Eats.ifn (ht.ne (by decide)) ?_
  refine (Eats.read (seen_of ho rfl)).bind ?_
  refine Eats.ifp ho ?_
  exact (Eats.inScope (by simp) (Eats.withAngles ha)).bind h

/-- The end of a part: `::`. -/
theorem sep_more {s : Token} {acc : List NComp} {comp : Token → NComp} {b : List NComp} {k' : Nat}
    {pv' : Option Token} {l' : List Token} (hs : s.type = .doubleColon)
    (h : Eats (fun x => x (.nested (acc ++ [comp s]))) (k + 1) (some s) l b k' pv' l') :
    Eats (fun x => sepStep x acc comp) k pv (s :: l) b k' pv' l' := by
  unfold sepStep
  refine (Eats.read (seen_of hs rfl)).bind ?_
  exact Eats.ifp hs h

/-- The end of the last part. -/
theorem sep_last {f : Token} {acc : List NComp} {comp : Token → NComp} (hv : skipped f.type = false)
    (hf : f.type ≠ .doubleColon) :
    Eats (fun x => sepStep x acc comp) k pv (f :: l) (acc ++ [comp noTok]) k none (f :: l) := by
  unfold sepStep
  refine (Eats.read hv).bind ?_
  exact Eats.ifn hf (Eats.push.bind (Eats.ret (Nat.le_refl _)))

/-- A token that is not part of a name ends the loop. -/
theorem nested_stop {f : Token} {acc : List NComp} (hv : skipped f.type = false)
    (hf : f.type ≠ .identifier ∨ f.text ∈ nestedStop) :
    Eats (fun x => x (.nested acc)) k pv (f :: l) acc k none (f :: l) := by
  refine Eats.call (c := .nested acc) ?_
  show Eats (fun x => nestedBody x acc) _ _ _ _ _ _ _
  unfold nestedBody
  refine (Eats.read hv).bind ?_
  by_cases h : f.type ≠ .identifier
  · exact Eats.ifp h (Eats.push.bind (Eats.ret (Nat.le_refl _)))
  · refine Eats.ifn h ?_
    exact Eats.ifp (hf.resolve_left h) (Eats.push.bind (Eats.ret (Nat.le_refl _)))

theorem splitTail_ident {acc : List NComp} {n : Token} :
    splitTail (acc ++ [.ident n noTok noTok [] noTok]) = (acc, .ident n) := by
  simp [splitTail, valid, noTok]

theorem splitTail_tmpl {acc : List NComp} {n o c : Token} {args : List TArg} (ho : o.type = .openAngle) :
    splitTail (acc ++ [.ident n o c args noTok]) = (acc, .templateId n o c args) := by
  simp [splitTail, valid, noTok, ho]

/-! ## What is to be proved of each part of the grammar -/

/-- The parts that end with `::` are read by the loop. -/
def CompsP (ns : List NComp) (w : List Token) : Prop :=
  ∀ (acc : List NComp) (l l' : List Token) (b : List NComp) (e : Nat),
    (∀ k pv, Eats (fun x => x (.nested (acc ++ ns))) k pv l b e none l') →
    ∀ k pv, Eats (fun x => x (.nested acc)) k pv (w ++ l) b e none l'

/-- The last part. -/
def UnqP (u : Unqual) (w : List Token) : Prop :=
  u.isEmpty = false ∧ (∃ n w', w = n :: w' ∧ Name n) ∧ ∀ acc, ∃ comp, splitTail (acc ++ [comp]) = (acc, u) ∧
    ∀ (f : Token) (l : List Token), NameEnd f →
      ∀ k pv, Eats (fun x => x (.nested acc)) k pv (w ++ f :: l) (acc ++ [comp] : List NComp) 1 none (f :: l)

/-- Template arguments. -/
def TArgsP (args : List TArg) (c : Token) (w : List Token) : Prop :=
  ∀ (acc : List TArg) (l : List Token) (k : Nat) (pv : Option Token), 1 ≤ k →
    Eats (fun x => x (.targs acc)) k pv (w ++ l) (acc ++ args, some c) 1 none l

/-- The token ends a type. -/
structure TypeEnd (f : Token) : Prop extends NameEnd f where
  ident : f.type ≠ .identifier
  tilde : f.type ≠ .tilde
  paren : f.type ≠ .openParen
  square : f.type ≠ .openSquare
  star : f.type ≠ .star
  amp : f.type ≠ .singleAmpersand
  amps : f.type ≠ .doubleAmpersand
  ell : f.type ≠ .ellipsis

/-- Types. -/
def TypeIdP (specs : List Spec) (abs : List Prod) (w : List Token) : Prop :=
  (∃ n w', w = n :: w' ∧ n.type = .identifier) ∧ ∀ (f : Token) (l : List Token), TypeEnd f → ∀ k pv,
    Eats (fun x => x (.specs .typeId [] [] false)) k pv (w ++ f :: l) (specs, [.mk (.mk abs .none) .none noTok]) 1 none
      (f :: l)

/-! ## Whole names -/

/-- A complete name. -/
theorem qid_name {ns : List NComp} {u : Unqual} {w w' : List Token} {f : Token} {m : QMode} (hn : CompsP ns w)
    (hu : UnqP u w') (hf : NameEnd f) :
    Eats (fun x => x (.qid m)) k pv (w ++ (w' ++ f :: l)) (.mk ns u) 1 none (f :: l) := by
  refine Eats.call (c := .qid m) ?_
  show Eats (fun x => qidBody x m) _ _ _ _ _ _ _
  unfold qidBody
  obtain ⟨he, -, hu⟩ := hu
  obtain ⟨comp, hs, hu⟩ := hu ns
  refine Eats.bind (α := List NComp) (hn [] _ _ _ 1 (fun k pv => hu f l hf k pv) k pv) ?_
  rw [hs]
  dsimp only
  refine Eats.ifn (by rw [he]; simp) ?_
  refine (Eats.pure u).bind ?_
  refine Eats.ifn ?_ (Eats.ret (Nat.le_refl _))
  simp [QId.isComplete, QId.isNestedOnly, QId.unqual, he]

/-- No name. -/
theorem qid_none {f : Token} {m : QMode} (hm : m ≠ .requireComplete) (hv : skipped f.type = false)
    (hf : f.type ≠ .identifier ∨ f.text ∈ nestedStop) (ht : f.type ≠ .tilde)
    (ho : ¬(f.type = .identifier ∧ f.text = (bs ['o', 'p', 'e', 'r', 'a', 't', 'o', 'r']))) :
    Eats (fun x => x (.qid m)) k pv (f :: l) .none k none (f :: l) := by
  refine Eats.call (c := .qid m) ?_
  show Eats (fun x => qidBody x m) _ _ _ _ _ _ _
  unfold qidBody
  refine (nested_stop (acc := []) hv hf).bind ?_
  show Eats (fun x => unqualName >>= _) _ _ _ _ _ _ _
  refine Eats.bind (a := Unqual.empty) (k' := k) (pv' := none) (l' := f :: l) ?_ ?_
  · unfold unqualName
    refine (Eats.read hv).bind ?_
    refine Eats.ifn ht ?_
    refine Eats.ifn ho ?_
    exact Eats.push.bind (Eats.ret (Nat.le_refl _))
  · refine Eats.ifn ?_ (Eats.ret (Nat.le_refl _))
    simp [hm, QId.isNestedOnly, QId.nested]

/-! ## Pointers and references -/

/-- The first loop over a declarator: pointers and references. -/
theorem phase1_ptrs {q : Bool} {w : List Token} (h : PtrToks q w) {named abs : Bool} {l l' : List Token} {b : Phase1}
    {e : Nat} : ∀ {chain : List Prod} {k : Nat} {pv : Option Token}, 1 ≤ k →
    (∀ q k pv, 1 ≤ k → Eats (fun x => x (.phase1 named abs (ptrTrees w ++ chain) q)) k pv l b e none l') →
    Eats (fun x => x (.phase1 named abs chain q)) k pv (w ++ l) b e none l' := by
  induction h with
  | nil => intro chain k pv hk h; exact h _ _ _ hk
  | star ht r ih =>
    rename_i q t w
    intro chain k pv hk h
    refine Eats.call (c := .phase1 named abs chain q) ?_
    show Eats (fun x => phase1Body x named abs chain q) _ _ _ _ _ _ _
    unfold phase1Body
    refine (qid_none (by simp) (seen_of ht rfl) (by simp [ht]) (by simp [ht]) (by simp [ht])).bind ?_
    refine Eats.ifn (by simp [QId.isComplete, QId.none, QId.unqual, Unqual.isEmpty]) ?_
    refine (Eats.read (seen_of ht rfl)).bind ?_
    refine Eats.ifn (by simp [ht]) ?_
    refine Eats.ifn (by simp [ht]) ?_
    refine Eats.ifp (by simp [ht]) ?_
    refine Eats.unmute.bind ?_
    rw [ht]
    refine ih (by omega) (fun q k pv hk => ?_)
    have := h q k pv hk
    rw [show ptrTrees (t :: w) ++ chain = ptrTrees w ++ (.ptr [] t :: chain) by simp [ptrTrees, ht]] at this
    exact this
  | ref ht r ih =>
    rename_i q t w
    intro chain k pv hk h
    have hs : skipped t.type = false := by rcases ht with h | h <;> rw [h] <;> rfl
    refine Eats.call (c := .phase1 named abs chain q) ?_
    show Eats (fun x => phase1Body x named abs chain q) _ _ _ _ _ _ _
    unfold phase1Body
    refine (qid_none (by simp) hs (by rcases ht with h | h <;> simp [h]) (by rcases ht with h | h <;> simp [h])
      (by rcases ht with h | h <;> simp [h])).bind ?_
    refine Eats.ifn (by simp [QId.isComplete, QId.none, QId.unqual, Unqual.isEmpty]) ?_
    refine (Eats.read hs).bind ?_
    refine Eats.ifn (by rcases ht with h | h <;> simp [h]) ?_
    refine Eats.ifn (by simp [QId.none, QId.nested]) ?_
    refine Eats.ifp (Or.inr ht) ?_
    refine Eats.unmute.bind ?_
    rw [show (t.type == TT.star) = false by rcases ht with h | h <;> rw [h] <;> rfl]
    refine ih (by omega) (fun q k pv hk => ?_)
    have := h q k pv hk
    have hi : t.type ≠ .identifier := by rcases ht with h | h <;> simp [h]
    rw [show ptrTrees (t :: w) ++ chain = ptrTrees w ++ (.ptr [] t :: chain) by simp [ptrTrees, hi]] at this
    exact this
  | qual ht r ih =>
    rename_i t w
    intro chain k pv hk h
    refine Eats.call (c := .phase1 named abs chain true) ?_
    show Eats (fun x => phase1Body x named abs chain true) _ _ _ _ _ _ _
    unfold phase1Body
    refine (qid_none (by simp) (seen_of ht.1 rfl) (Or.inr ?_) (by simp [ht.1]) ?_).bind ?_
    · rcases ht.2 with h | h <;> rw [h] <;> decide
    · rintro ⟨-, e⟩
      rcases ht.2 with h | h <;> rw [h] at e <;> revert e <;> decide
    refine Eats.ifn (by simp [QId.isComplete, QId.none, QId.unqual, Unqual.isEmpty]) ?_
    refine (Eats.read (seen_of ht.1 rfl)).bind ?_
    refine Eats.ifn (by simp [ht.1]) ?_
    refine Eats.ifn (by simp [QId.none, QId.nested]) ?_
    refine Eats.ifn (by simp [ht.1]) ?_
    refine Eats.ifn (by simp [ht.1]) ?_
    refine Eats.ifp ht.1 ?_
    refine (Eats.check (by simp [QId.none, QId.nested])).bind ?_
    refine (Eats.check (by rcases ht.2 with h | h <;> rw [h] <;> decide)).bind ?_
    refine Eats.ifn (by simp) ?_
    refine Eats.unmute.bind ?_
    refine ih (by omega) (fun q k pv hk => ?_)
    have := h q k pv hk
    rw [show ptrTrees (t :: w) ++ chain = ptrTrees w ++ (.qual t :: chain) by simp [ptrTrees, ht.1]] at this
    exact this

/-- The end of a declarator without a name. -/
theorem phase1_end {f : Token} {named : Bool} {chain : List Prod} {q : Bool} (hf : TypeEnd f) :
    Eats (fun x => x (.phase1 named true chain q)) k pv (f :: l) { chain := chain, qid := .none } k none (f :: l) := by
  refine Eats.call (c := .phase1 named true chain q) ?_
  show Eats (fun x => phase1Body x named true chain q) _ _ _ _ _ _ _
  unfold phase1Body
  refine (qid_none (by simp) hf.seen (Or.inl hf.ident) hf.tilde (fun h => hf.ident h.1)).bind ?_
  refine Eats.ifn (by simp [QId.isComplete, QId.none, QId.unqual, Unqual.isEmpty]) ?_
  refine (Eats.read hf.seen).bind ?_
  refine Eats.ifn hf.paren ?_
  refine Eats.ifn (by simp [QId.none, QId.nested]) ?_
  refine Eats.ifn (by simp [hf.star, hf.amp, hf.amps]) ?_
  refine Eats.ifn hf.ell ?_
  refine Eats.ifn hf.ident ?_
  refine (Eats.check (by simp [QId.none, QId.nested])).bind ?_
  refine Eats.ifn (by simp) ?_
  exact Eats.push.bind (Eats.ret (Nat.le_refl _))

/-- The end of a declarator. -/
theorem phase2_end {f : Token} {chain : List Prod} {a : Nat} {e : Bool} (hv : skipped f.type = false)
    (h1 : f.type ≠ .openSquare) (h2 : f.type ≠ .openParen) :
    Eats (fun x => x (.phase2 chain a e)) k pv (f :: l) chain k none (f :: l) := by
  refine Eats.call (c := .phase2 chain a e) ?_
  show Eats (fun x => phase2Body x chain a e) _ _ _ _ _ _ _
  unfold phase2Body
  refine (Eats.read hv).bind ?_
  refine Eats.ifn h1 ?_
  refine Eats.ifn h2 ?_
  exact Eats.push.bind (Eats.ret (Nat.le_refl _))

/-- A declarator of pointers and references without a name. -/
theorem dcor_abs {w : List Token} {f : Token} {named : Bool} (h : PtrToks false w) (hf : TypeEnd f) (hk : 1 ≤ k) :
    Eats (fun x => x (.dcor [] named true)) k pv (w ++ f :: l) (.mk (ptrTrees w) .none) 1 none (f :: l) := by
  refine Eats.call (c := .dcor [] named true) ?_
  show Eats (fun x => dcorBody x [] named true) _ _ _ _ _ _ _
  unfold dcorBody
  refine (phase1_ptrs h hk (fun q k pv hk => (phase1_end hf).done hk)).bind ?_
  refine Eats.ifn (by simp) ?_
  refine (phase2_end hf.seen hf.square hf.paren).bind ?_
  rw [List.append_nil]
  exact Eats.ret (Nat.le_refl _)

/-! ## Specifiers -/

/-- Words before or behind the type. -/
theorem specs_kws {w : List Token} (h : Kws w) {mode : Mode} {cls : List Byte} {hasType : Bool} {l l' : List Token}
    {b : List Spec × List InitDcor} {e : Nat} : ∀ {acc : List Spec} {k : Nat} {pv : Option Token},
    (∀ j pv, k ≤ j → Eats (fun x => x (.specs mode cls (acc ++ w.map .keyword) hasType)) j pv l b e none l') →
    Eats (fun x => x (.specs mode cls acc hasType)) k pv (w ++ l) b e none l' := by
  induction w with
  | nil =>
    intro acc k pv h'
    have := h' k pv (Nat.le_refl _)
    rw [show acc ++ List.map Spec.keyword [] = acc by simp] at this
    exact this
  | cons t w ih =>
    intro acc k pv h'
    obtain ⟨h1, h2⟩ := h t (by simp)
    refine Eats.call (c := .specs mode cls acc hasType) ?_
    show Eats (fun x => specsBody x mode cls acc hasType) _ _ _ _ _ _ _
    unfold specsBody
    refine (Eats.read (seen_of h1 rfl)).bind ?_
    refine Eats.ifp h1 ?_
    refine Eats.ifn ?_ ?_
    · intro e
      rw [e] at h2
      revert h2
      decide
    refine Eats.ifp h2 ?_
    refine Eats.unmute.bind ?_
    refine ih (fun t ht => h t (by simp [ht])) (fun j pv hj => ?_)
    have := h' j pv (by omega)
    rw [show acc ++ List.map Spec.keyword (t :: w) = acc ++ [.keyword t] ++ w.map .keyword by simp] at this
    exact this

/-- The first token of a name. -/
theorem first_name {ns : List NComp} {w : List Token} (h : CompsT ns w) {w' : List Token}
    (hu : ∃ n v, w' = n :: v ∧ Name n) (l : List Token) : ∃ n v, w ++ (w' ++ l) = n :: v ∧ Name n := by
  cases h with
  | nil => obtain ⟨n, v, rfl, hn⟩ := hu; exact ⟨n, _, rfl, hn⟩
  | ident hn hs r => exact ⟨_, _, rfl, hn⟩
  | tmpl hn ho ha hs r => exact ⟨_, _, rfl, hn⟩

/-- A class is not declared in a type. -/
theorem specs_name {t : Token} {v : List Token} (ht : Name t) {mode : Mode} {cls : List Byte} {acc : List Spec}
    {b : List Spec × List InitDcor} {k' : Nat} {pv' : Option Token} {l' : List Token}
    {q : QId} (hq : ∀ k pv, Eats (fun x => x (.qid .requireComplete)) k pv (t :: v) q 1 none l) (he : q.isEmpty = false)
    (h : Eats (fun x => typeSpec x mode cls acc noTok q) 1 none l b k' pv' l') :
    Eats (fun x => x (.specs mode cls acc false)) k pv (t :: v) b k' pv' l' := by
  refine Eats.call (c := .specs mode cls acc false) ?_
  show Eats (fun x => specsBody x mode cls acc false) _ _ _ _ _ _ _
  unfold specsBody
  refine (Eats.read ht.seen).bind ?_
  refine Eats.ifp ht.1 ?_
  refine Eats.ifn (ht.ne (by decide)) ?_
  refine Eats.ifn (ht.notIn (by decide)) ?_
  refine Eats.ifn (fun h => ht.ne (by decide) h.2) ?_
  refine Eats.ifn (fun h => ht.ne (by decide) h.2) ?_
  refine Eats.ifn (fun h => ht.notIn (by decide) h.2) ?_
  refine Eats.ifn (fun h => ht.ne (by decide) h.2) ?_
  refine Eats.ifn (fun h => ht.ne (by decide) h.2.1) ?_
  refine Eats.unmute.bind ?_
  refine Eats.ifn (by simp) ?_
  refine Eats.ifn (ht.ne (by decide)) ?_
  refine Eats.push.bind ?_
  refine (hq _ _).bind ?_
  exact (Eats.check (by simp [he])).bind h

/-- The type in a place other than a declaration. -/
theorem typeSpec_plain {mode : Mode} {cls : List Byte} {acc : List Spec} {q : QId} (hm : mode ≠ .globalOrMember)
    {b : List Spec × List InitDcor} {k' : Nat} {pv' : Option Token} {l' : List Token}
    (h : Eats (fun x => x (.specs mode cls (acc ++ [.typeId noTok q]) true)) k pv l b k' pv' l') :
    Eats (fun x => typeSpec x mode cls acc noTok q) k pv l b k' pv' l' := by
  unfold typeSpec
  refine Eats.ifn (by simp [hm]) ?_
  refine (Eats.pure _).bind ?_
  exact Eats.ifn (by simp [valid, noTok]) h

/-- A token that is not a word ends the specifiers. -/
theorem specs_end {f : Token} {mode : Mode} {cls : List Byte} {acc : List Spec} {b : List InitDcor} {k' : Nat}
    {l' : List Token} (hv : skipped f.type = false) (hf : f.type ≠ .identifier)
    (h : ∀ pv, Eats (fun x => parseInitDcors x mode) k pv (f :: l) b k' none l') :
    Eats (fun x => x (.specs mode cls acc true)) k pv (f :: l) (acc, b) k' none l' := by
  refine Eats.call (c := .specs mode cls acc true) ?_
  show Eats (fun x => specsBody x mode cls acc true) _ _ _ _ _ _ _
  unfold specsBody
  refine (Eats.read hv).bind ?_
  refine Eats.ifn hf ?_
  refine Eats.ifn (by simp) ?_
  exact Eats.push.bind ((h _).bind (Eats.ret (Nat.le_refl _)))

/-- So does a name. -/
theorem specs_end_name {f : Token} {mode : Mode} {cls : List Byte} {acc : List Spec} {b : List InitDcor} {k' : Nat}
    {l' : List Token} (ht : Name f ∨ Word (bs ['o', 'p', 'e', 'r', 'a', 't', 'o', 'r']) f)
    (h : ∀ pv, Eats (fun x => parseInitDcors x mode) k pv (f :: l) b k' none l') :
    Eats (fun x => x (.specs mode cls acc true)) k pv (f :: l) (acc, b) k' none l' := by
  have hi : f.type = .identifier := by rcases ht with h | h <;> exact h.1
  have hno : f.text ∉ keywordWords ∧ f.text ∉ classWords ∧ f.text ≠ (bs ['e', 'x', 't', 'e', 'r', 'n']) ∧ f.text ≠ (bs ['a', 'l', 'i', 'g', 'n', 'a', 's']) ∧
      f.text ≠ (bs ['t', 'y', 'p', 'e', 'd', 'e', 'f']) ∧ f.text ≠ (bs ['e', 'n', 'u', 'm']) := by
    rcases ht with h | h
    · exact ⟨h.notIn (by decide), h.notIn (by decide), h.ne (by decide), h.ne (by decide), h.ne (by decide),
        h.ne (by decide)⟩
    · rw [h.2]; decide
  obtain ⟨h1, h2, h3, h4, h5, h6⟩ := hno
  refine Eats.call (c := .specs mode cls acc true) ?_
  show Eats (fun x => specsBody x mode cls acc true) _ _ _ _ _ _ _
  unfold specsBody
  refine (Eats.read (seen_of hi rfl)).bind ?_
  refine Eats.ifp hi ?_
  refine Eats.ifn h3 ?_
  refine Eats.ifn h1 ?_
  refine Eats.ifn (fun h => h4 h.2) ?_
  refine Eats.ifn (fun h => h5 h.2) ?_
  refine Eats.ifn (fun h => h2 h.2) ?_
  refine Eats.ifn (fun h => h6 h.2) ?_
  refine Eats.ifn (by simp) ?_
  refine Eats.unmute.bind ?_
  refine Eats.ifp (by simp) ?_
  exact Eats.push.bind ((h _).bind (Eats.ret (Nat.le_refl _)))

/-- The token behind a name in a type. -/
theorem follow_name {k' p : List Token} (hk : Kws k') (hp : PtrToks false p) (f : Token) (l : List Token) :
    ∃ g v, k' ++ (p ++ f :: l) = g :: v ∧ (g.type ∈ [TT.identifier, .star, .singleAmpersand, .doubleAmpersand] ∨ g = f) := by
  cases k' with
  | cons t k' => exact ⟨t, _, rfl, Or.inl (by simp [(hk t (by simp)).1])⟩
  | nil =>
    cases hp with
    | nil => exact ⟨f, l, rfl, Or.inr rfl⟩
    | star h r => exact ⟨_, _, rfl, Or.inl (by simp [h])⟩
    | ref h r => exact ⟨_, _, rfl, Or.inl (by rcases h with h | h <;> simp [h])⟩

theorem nameEnd_of {g f : Token} (h : g.type ∈ [TT.identifier, .star, .singleAmpersand, .doubleAmpersand] ∨ g = f)
    (hf : NameEnd f) : NameEnd g := by
  rcases h with h | rfl
  · simp only [List.mem_cons, List.not_mem_nil, or_false] at h
    rcases h with h | h | h | h <;> exact ⟨seen_of h rfl, by simp [h], by simp [h]⟩
  · exact hf

/-- The token behind the words of a type. -/
theorem follow_ptr {p : List Token} (hp : PtrToks false p) (f : Token) (l : List Token) :
    ∃ g v, p ++ f :: l = g :: v ∧ (g.type ∈ [TT.star, .singleAmpersand, .doubleAmpersand] ∨ g = f ∧ p = []) := by
  cases hp with
  | nil => exact ⟨f, l, rfl, Or.inr ⟨rfl, rfl⟩⟩
  | star h r => exact ⟨_, _, rfl, Or.inl (by simp [h])⟩
  | ref h r => exact ⟨_, _, rfl, Or.inl (by rcases h with h | h <;> simp [h])⟩

/-- What happens behind a template argument. -/
def afterArg (acc : List TArg) (specs : List Spec) (abs : List Prod) (sep : Sep) (x : Rec) :
    M Lim (List TArg × Option Token) :=
  match sep with
  | .close t => pure (acc ++ [.typeId specs abs noTok], some t)
  | .comma t => x (.targs (acc ++ [.typeId specs abs t]))
  | .outer => pure (acc ++ [.typeId specs abs noTok], none)

/-- One template argument, with what stands behind it. -/
theorem targs_step {acc : List TArg} {specs : List Spec} {abs : List Prod} {w v l' : List Token} {f : Token}
    {sep : Sep} {b : List TArg × Option Token} (h : TypeIdP specs abs w) (hf : TypeEnd f) (hk : 1 ≤ k)
    (hsep : ∀ k pv, Eats (fun x => x (.targSep none)) k pv (f :: v) (none, sep) 1 none v)
    (hb : Eats (afterArg acc specs abs sep) 1 none v b 1 none l') :
    Eats (fun x => x (.targs acc)) k pv (w ++ f :: v) b 1 none l' := by
  obtain ⟨⟨n, w', rfl, hn⟩, h⟩ := h
  refine Eats.call (c := .targs acc) ?_
  show Eats (fun x => targsBody x acc) _ _ _ _ _ _ _
  unfold targsBody
  refine (Eats.peek (t := n) (seen_of hn rfl)).bind ?_
  refine Eats.region (α := (List Spec × List InitDcor) × Bool × (Option Token × Sep))
    (a := ((specs, [.mk (.mk abs .none) .none noTok]), false, (none, sep)))
    (f := fun x => x (.specs .typeId [] [] false) >>= fun a => failedSince 0 >>= fun b => x (.targSep none) >>= fun c =>
      Pure.pure (a, b, c)) (k' := 1) (pv' := none) (l' := v) (h := afterArg acc specs abs sep) hk (Nat.le_refl _) ?_ ?_ hb
  · refine (h f v hf 0 none).bind ?_
    refine Eats.failedSince.bind ?_
    exact (hsep _ _).bind (Eats.ret (Nat.le_refl _))
  · intro r m p q s hr hq hf' hc
    obtain ⟨a1, p1, e1, hf'⟩ := bind_inv hf'
    obtain ⟨a2, p2, e2, hf'⟩ := bind_inv hf'
    obtain ⟨a3, p3, e3, hf'⟩ := bind_inv hf'
    cases hf'
    refine (bind_ok e1).trans ?_
    rw [hr]
    refine (bind_ok e2).trans ?_
    refine (ifp rfl).trans ?_
    refine (bind_ok (a := ()) (q := p2) (by simp [check, Dcor.qid, QId.none, QId.isEmpty, QId.nested, QId.unqual, Unqual.isEmpty])).trans ?_
    refine (bind_ok (show (Pure.pure _ : M Lim _) p2 = .ok _ p2 from rfl)).trans ?_
    refine (bind_ok e3).trans ?_
    refine (ifp rfl).trans ?_
    refine (bind_ok hc).trans ?_
    cases sep <;> rfl

theorem targSep_close {c : Token} (hc : c.type = .closeAngle) :
    Eats (fun x => x (.targSep none)) k pv (c :: l) (none, .close c) 1 none l := by
  refine Eats.call (c := .targSep none) ?_
  show Eats (fun x => targSepBody x none) _ _ _ _ _ _ _
  unfold targSepBody
  refine (Eats.read (seen_of hc rfl)).bind ?_
  exact Eats.ifp hc (Eats.unmute.bind (Eats.ret (by omega)))

theorem targSep_comma {c : Token} (hc : c.type = .comma) :
    Eats (fun x => x (.targSep none)) k pv (c :: l) (none, .comma c) 1 none l := by
  refine Eats.call (c := .targSep none) ?_
  show Eats (fun x => targSepBody x none) _ _ _ _ _ _ _
  unfold targSepBody
  refine (Eats.read (seen_of hc rfl)).bind ?_
  refine Eats.ifn (by simp [hc]) ?_
  exact Eats.ifp hc (Eats.unmute.bind (Eats.ret (by omega)))

theorem typeEnd_of {f : Token} (h : f.type ∈ [TT.comma, .closeAngle, .semicolon, .closeParen, .singleEqual]) :
    TypeEnd f := by
  simp only [List.mem_cons, List.not_mem_nil, or_false] at h
  rcases h with h | h | h | h | h <;> constructor <;> first | constructor <;> simp [h, skipped] | simp [h]

/-- Specifiers in a place other than a declaration. -/
theorem specs_plain {k1 w w' k2 : List Token} {ns : List NComp} {u : Unqual} {mode : Mode} {acc : List Spec}
    {b : List Spec × List InitDcor} {l' v : List Token} {g : Token} (hm : mode ≠ .globalOrMember) (h1 : Kws k1)
    (hc : CompsT ns w) (hn : CompsP ns w) (hu : UnqP u w') (h2 : Kws k2) (hg : k2 ++ l = g :: v) (hge : NameEnd g)
    (h : ∀ pv, Eats (fun x => x (.specs mode [] (acc ++ (k1.map .keyword ++ .typeId noTok (.mk ns u) :: k2.map .keyword))
      true)) 1 pv l b 1 none l') :
    Eats (fun x => x (.specs mode [] acc false)) k pv (k1 ++ (w ++ (w' ++ (k2 ++ l)))) b 1 none l' := by
  refine specs_kws h1 (fun j pv hj => ?_)
  obtain ⟨n, v', e, hname⟩ := first_name hc hu.2.1 (k2 ++ l)
  rw [e]
  refine specs_name (l := k2 ++ l) hname (q := .mk ns u) (fun k pv => ?_) ?_ ?_
  · rw [← e, hg]
    exact qid_name hn hu hge
  · simp [QId.isEmpty, QId.unqual, hu.1]
  · refine typeSpec_plain hm ?_
    refine specs_kws h2 (fun j pv hj => ?_)
    have := h none
    rw [show acc ++ (k1.map .keyword ++ .typeId noTok (.mk ns u) :: k2.map .keyword) =
      acc ++ k1.map .keyword ++ [.typeId noTok (.mk ns u)] ++ k2.map Spec.keyword by simp] at this
    exact this.weaken hj (Nat.le_refl _)

mutual

theorem comps_p {ns : List NComp} {w : List Token} : CompsT ns w → CompsP ns w
  | .nil => fun acc l l' b e h k pv => by
    have := h k pv
    rw [show acc ++ [] = acc by simp] at this
    exact this
  | .ident hn hs r => fun acc l l' b e h k pv => by
    refine nested_ident hn (Or.inr hs) (sep_more hs ?_)
    refine comps_p r _ l l' b e (fun k pv => ?_) _ _
    have := h k pv
    rw [List.append_cons] at this
    exact this
  | .tmpl hn ho ha hs r => fun acc l l' b e h k pv => by
    rw [List.cons_append, List.cons_append, List.append_assoc, List.cons_append]
    refine nested_tmpl hn ho (targs_p ha _ _ _ _ (by omega)) (sep_more hs ?_)
    refine comps_p r _ l l' b e (fun k pv => ?_) _ _
    have := h k pv
    rw [List.append_cons] at this
    exact this

theorem unq_p {u : Unqual} {w : List Token} : UnqT u w → UnqP u w
  | .ident hn => by
    refine ⟨rfl, ⟨_, _, rfl, hn⟩, fun acc => ⟨_, splitTail_ident, fun f l hf k pv => ?_⟩⟩
    exact nested_ident hn (Or.inl hf) ((sep_last hf.seen hf.colons).done (by omega))
  | .tmpl hn ho ha => by
    refine ⟨rfl, ⟨_, _, rfl, hn⟩, fun acc => ⟨_, splitTail_tmpl ho, fun f l hf k pv => ?_⟩⟩
    exact nested_tmpl hn ho (targs_p ha _ _ _ _ (by omega)) (sep_last hf.seen hf.colons)

theorem targs_p {args : List TArg} {c : Token} {w : List Token} : TArgsT args c w → TArgsP args c w
  | .last h hc => fun acc l k pv hk => by
    rw [List.append_assoc]
    exact targs_step (typeId_p h) (typeEnd_of (by simp [hc])) hk (fun _ _ => targSep_close hc) (Eats.ret (Nat.le_refl _))
  | .more h hm r => fun acc l k pv hk => by
    rw [List.append_assoc, List.cons_append]
    refine targs_step (typeId_p h) (typeEnd_of (by simp [hm])) hk (fun _ _ => targSep_comma hm) ?_
    rw [List.append_cons]
    exact targs_p r _ l 1 none (Nat.le_refl _)

theorem typeId_p {specs : List Spec} {abs : List Prod} {w : List Token} : TypeIdT specs abs w → TypeIdP specs abs w
  | .mk hk hn hu hk' hp => by
    have hup := unq_p hu
    refine ⟨?_, fun f l hf k pv => ?_⟩
    · rename_i k1 k2 w1 w2 p ns u
      cases k1 with
      | cons t k1 => exact ⟨t, _, rfl, (hk t (by simp)).1⟩
      | nil =>
        obtain ⟨n, v, e, h⟩ := first_name hn hup.2.1 (k2 ++ p)
        exact ⟨n, v, e, h.1⟩
    · simp only [List.append_assoc]
      obtain ⟨g, v, e, hg⟩ := follow_name hk' hp f l
      refine specs_plain (by simp) hk hn (comps_p hn) hup hk' e (nameEnd_of hg hf.toNameEnd) (fun pv => ?_)
      obtain ⟨g, v, e, hg⟩ := follow_ptr hp f l
      rw [e]
      have hg' : skipped g.type = false ∧ g.type ≠ .identifier := by
        rcases hg with h | ⟨rfl, -⟩
        · simp only [List.mem_cons, List.not_mem_nil, or_false] at h
          rcases h with h | h | h <;> simp [h, skipped]
        · exact ⟨hf.seen, hf.ident⟩
      refine specs_end hg'.1 hg'.2 (fun pv => ?_)
      rw [← e]
      exact (dcor_abs hp hf (Nat.le_refl _)).bind (Eats.ret (Nat.le_refl _))

end

end

end Verif.CppParse

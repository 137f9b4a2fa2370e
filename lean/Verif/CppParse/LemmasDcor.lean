import Verif.CppParse.LemmasType
/-! # The parser for C++ — lemmas: expressions, declarators and parameters -/
namespace Verif.CppParse
open Verif Verif.Cpp

/-! ## Expressions -/

/-- The token ends an expression. -/
def ExprEnd (f : Token) : Prop :=
  f.type ∈ [TT.semicolon, .comma, .closeParen, .closeSquare, .closeCurly]

/-- The token ends an operand. -/
structure PrimEnd (f : Token) : Prop extends NameEnd f where
  paren : f.type ≠ .openParen
  curly : f.type ≠ .openCurly
  str : f.type ≠ .stringLiteral

theorem ExprEnd.prim {f : Token} (h : ExprEnd f) : PrimEnd f := by
  simp only [ExprEnd, List.mem_cons, List.not_mem_nil, or_false] at h
  rcases h with h | h | h | h | h <;> constructor <;> first | constructor <;> simp [h, skipped] | simp [h]

theorem BinOp.prim {f : Token} (h : BinOp f) : PrimEnd f := by
  simp only [BinOp, List.mem_cons, List.not_mem_nil, or_false] at h
  rcases h with h | h | h | h | h | h | h | h | h | h | h | h | h | h <;> constructor <;>
    first | constructor <;> simp [h, skipped] | simp [h]

theorem BinOp.binary {f : Token} (h : BinOp f) : binary f.type = true ∧ f.type ≠ .closeAngle := by
  simp only [BinOp, List.mem_cons, List.not_mem_nil, or_false] at h
  rcases h with h | h | h | h | h | h | h | h | h | h | h | h | h | h <;> simp [h, CppParse.binary]

theorem ExprEnd.stop {f : Token} (h : ExprEnd f) :
    f.type ≠ .closeAngle ∧ CppParse.binary f.type = false ∧ f.type ≠ .questionMark := by
  simp only [ExprEnd, List.mem_cons, List.not_mem_nil, or_false] at h
  rcases h with h | h | h | h | h <;> simp [h, CppParse.binary]

/-- The first token of an expression. -/
def ExprStart (w : List Token) : Prop :=
  ∃ n w', w = n :: w' ∧ n.type ∈ [TT.identifier, .numericLiteral, .stringLiteral, .bang, .singleAmpersand, .singleMinus]

/-- Expressions are read. -/
def ExprP (s e : Token) (w : List Token) : Prop :=
  ExprStart w ∧ ∀ (o : Bool) (f : Token) (l : List Token), ExprEnd f → ∀ k pv,
    Eats (fun x => x (.expr o)) k pv (w ++ f :: l) (s, e) 1 none (f :: l)

/-- Operands are read, and then what follows. -/
def PrimP (s e : Token) (w : List Token) : Prop :=
  ExprStart w ∧ ∀ (o : Bool) (g : Token) (l l' : List Token) (b : Token × Token), PrimEnd g →
    (∀ pv, Eats (fun x => exprTail x s e) 1 pv (g :: l) b 1 none l') →
    ∀ k pv, Eats (fun x => x (.expr o)) k pv (w ++ g :: l) b 1 none l'

/-- Arguments are read. -/
def ArgsP (c : Token) (w : List Token) : Prop :=
  ∀ (exp : Exp) (l : List Token) k pv, Eats (fun x => x (.args .closeParen exp)) k pv (w ++ l) c 1 none l

section
variable {k : Nat} {pv : Option Token} {l : List Token}

theorem consumeSpec_end {g : Token} (hg : NameEnd g) :
    Eats (fun x => x .consumeSpec) k pv (g :: l) () k none (g :: l) := by
  refine Eats.call (c := .consumeSpec) ?_
  show Eats (fun x => consumeSpecBody x) _ _ _ _ _ _ _
  unfold consumeSpecBody
  refine (Eats.read hg.seen).bind ?_
  refine Eats.ifn hg.angle ?_
  refine (Eats.pure _).bind ?_
  exact Eats.ifn hg.colons Eats.push

theorem exprTail_end {s e f : Token} (hf : ExprEnd f) (hk : 1 ≤ k) :
    Eats (fun x => exprTail x s e) k pv (f :: l) (s, e) 1 none (f :: l) := by
  unfold exprTail
  refine (Eats.read hf.prim.seen).bind ?_
  refine Eats.ifn hf.stop.1 ?_
  refine Eats.ifn (by simp [hf.stop.2.1]) ?_
  refine Eats.ifn hf.stop.2.2 ?_
  exact Eats.push.bind (Eats.ret hk)

theorem exprTail_bin {s e o s' e' f : Token} {w : List Token} (ho : BinOp o) (h : ExprP s' e' w) (hf : ExprEnd f) :
    Eats (fun x => exprTail x s e) k pv (o :: (w ++ f :: l)) (s, e') 1 none (f :: l) := by
  unfold exprTail
  refine (Eats.read ho.prim.seen).bind ?_
  refine Eats.ifn ho.binary.2 ?_
  refine Eats.ifp ho.binary.1 ?_
  exact (h.2 false f l hf _ _).bind (Eats.ret (Nat.le_refl _))

/-- An expression that is a name, with what follows. -/
theorem expr_name {o : Bool} {t : Token} (ht : t.type = .identifier) {g : Token} (hg : NameEnd g)
    {b : Token × Token} {l' : List Token}
    (h : ∀ k, Eats (fun x => do
      let t2 ← readToken
      let stop ←
        if t2.type = .openParen then inScope .openParen (x (.args .closeParen .commaOrCloseParen))
        else if t2.type = .openCurly then inScope .openCurly (x (.args .closeCurly .commaOrCloseCurly))
        else do
          pushBack t2
          pure t
      exprTail x t stop) (k + 1) none (g :: l) b 1 none l') :
    Eats (fun x => x (.expr o)) k pv (t :: g :: l) b 1 none l' := by
  refine Eats.call (c := .expr o) ?_
  show Eats (fun x => exprBody x o) _ _ _ _ _ _ _
  unfold exprBody
  refine (Eats.read (seen_of ht rfl)).bind ?_
  rw [ht]
  exact (consumeSpec_end hg).bind (h k)

theorem args_start {c : Token} {exp : Exp} {s e f : Token} {w l' : List Token} (h : ExprP s e w) (hf : ExprEnd f)
    (hb : ∀ pv, Eats (fun x => do
      let t4 ← readToken
      if t4.type = .comma then x (.args .closeParen exp)
      else if t4.type = .closeParen then return t4
      else
        expected t4 exp
        let (stay, _) ← handleUnexpected x t4
        if stay = true then x (.args .closeParen exp) else return noTok) 1 pv (f :: l) c 1 none l') :
    Eats (fun x => x (.args .closeParen exp)) k pv (w ++ f :: l) c 1 none l' := by
  refine Eats.call (c := .args .closeParen exp) ?_
  show Eats (fun x => argsBody x .closeParen exp) _ _ _ _ _ _ _
  unfold argsBody
  obtain ⟨⟨n, w', rfl, hn⟩, h⟩ := h
  have hn' : skipped n.type = false ∧ n.type ≠ .closeParen := by
    simp only [List.mem_cons, List.not_mem_nil, or_false] at hn
    rcases hn with h | h | h | h | h | h <;> simp [h, skipped]
  refine (Eats.read hn'.1).bind ?_
  refine Eats.ifn hn'.2 ?_
  refine Eats.push.bind ?_
  exact (h false f l hf _ _).bind (hb _)

mutual

theorem expr_p {s e : Token} {w : List Token} : ExprT s e w → ExprP s e w
  | .prim h => by
    have hp := prim_p h
    exact ⟨hp.1, fun o f l hf k pv => hp.2 o f l _ _ hf.prim (fun pv => exprTail_end hf (Nat.le_refl _)) k pv⟩
  | .bin h ho r => by
    have hp := prim_p h
    have hr := expr_p r
    refine ⟨?_, fun o f l hf k pv => ?_⟩
    · obtain ⟨n, w', rfl, hn⟩ := hp.1
      exact ⟨n, _, rfl, hn⟩
    · rw [List.append_assoc, List.cons_append]
      exact hp.2 o _ _ _ _ ho.prim (fun pv => exprTail_bin ho hr hf) k pv
  | .unary ho r => by
    have hr := expr_p r
    refine ⟨⟨_, _, rfl, ?_⟩, fun o f l hf k pv => ?_⟩
    · simp only [List.mem_cons, List.not_mem_nil, or_false] at ho ⊢
      rcases ho with h | h | h <;> simp [h]
    · refine Eats.call (c := .expr o) ?_
      show Eats (fun x => exprBody x o) _ _ _ _ _ _ _
      unfold exprBody
      simp only [List.mem_cons, List.not_mem_nil, or_false] at ho
      rcases ho with ho | ho | ho <;>
      · refine (Eats.read (seen_of ho rfl)).bind ?_
        rw [ho]
        exact (hr.2 false f l hf _ _).bind (exprTail_end hf (Nat.le_refl _))

theorem prim_p {s e : Token} {w : List Token} : PrimT s e w → PrimP s e w
  | .num ht => by
    refine ⟨⟨_, _, rfl, by simp [ht]⟩, fun o g l l' b hg h k pv => ?_⟩
    refine Eats.call (c := .expr o) ?_
    show Eats (fun x => exprBody x o) _ _ _ _ _ _ _
    unfold exprBody
    refine (Eats.read (seen_of ht rfl)).bind ?_
    rw [ht]
    exact (h none).weaken (by omega) (Nat.le_refl _)
  | .str ht => by
    refine ⟨⟨_, _, rfl, by simp [ht]⟩, fun o g l l' b hg h k pv => ?_⟩
    refine Eats.call (c := .expr o) ?_
    show Eats (fun x => exprBody x o) _ _ _ _ _ _ _
    unfold exprBody
    refine (Eats.read (seen_of ht rfl)).bind ?_
    rw [ht]
    refine Eats.bind (pv' := none) ?_ ((h none).weaken (j := k + 1) (by omega) (Nat.le_refl _))
    refine Eats.call (c := .strings _) ?_
    show Eats (fun x => stringsBody x _) _ _ _ _ _ _ _
    unfold stringsBody
    refine (Eats.read hg.seen).bind ?_
    exact Eats.ifp hg.str (Eats.push.bind (Eats.ret (Nat.le_refl _)))
  | .name ht => by
    refine ⟨⟨_, _, rfl, by simp [ht.1]⟩, fun o g l l' b hg h k pv => ?_⟩
    refine expr_name ht.1 hg.toNameEnd (fun k => ?_)
    refine (Eats.read hg.seen).bind ?_
    refine Eats.ifn hg.paren ?_
    refine Eats.ifn hg.curly ?_
    refine Eats.push.bind ?_
    refine (Eats.pure _).bind ?_
    exact (h none).weaken (by omega) (Nat.le_refl _)
  | .call0 ht ho hc => by
    refine ⟨⟨_, _, rfl, by simp [ht.1]⟩, fun o g l l' b hg h k pv => ?_⟩
    refine expr_name ht.1 ⟨seen_of ho rfl, by simp [ho], by simp [ho]⟩ (fun k => ?_)
    refine (Eats.read (seen_of ho rfl)).bind ?_
    refine Eats.ifp ho ?_
    refine Eats.bind (Eats.inScope (k' := 1) (pv' := none) (by simp) ?_) (h none)
    refine Eats.call (c := .args .closeParen .commaOrCloseParen) ?_
    show Eats (fun x => argsBody x .closeParen .commaOrCloseParen) _ _ _ _ _ _ _
    unfold argsBody
    refine (Eats.read (seen_of hc rfl)).bind ?_
    exact Eats.ifp hc (Eats.ret (by omega))
  | .call ht ho ha => by
    refine ⟨⟨_, _, rfl, by simp [ht.1]⟩, fun o g l l' b hg h k pv => ?_⟩
    refine expr_name ht.1 ⟨seen_of ho rfl, by simp [ho], by simp [ho]⟩ (fun k => ?_)
    refine (Eats.read (seen_of ho rfl)).bind ?_
    refine Eats.ifp ho ?_
    exact Eats.bind (Eats.inScope (by simp) (args_p ha .commaOrCloseParen (g :: l) _ _)) (h none)

theorem args_p {c : Token} {w : List Token} : ArgsT c w → ArgsP c w
  | .last h hc => fun exp l k pv => by
    rw [List.append_assoc]
    refine args_start (expr_p h) (by simp [ExprEnd, hc]) (fun pv => ?_)
    refine (Eats.read (seen_of hc rfl)).bind ?_
    refine Eats.ifn (by simp [hc]) ?_
    exact Eats.ifp hc (Eats.ret (by omega))
  | .more h hm r => fun exp l k pv => by
    rw [List.append_assoc, List.cons_append]
    refine args_start (expr_p h) (by simp [ExprEnd, hm]) (fun pv => ?_)
    refine (Eats.read (seen_of hm rfl)).bind ?_
    exact Eats.ifp hm (args_p r exp l _ _)

end

/-- Initializers. -/
theorem init_p {i : Init} {w : List Token} (h : InitT i w) {f : Token} (hf : ExprEnd f) (hk : 1 ≤ k) :
    Eats (fun x => variableInit x) k pv (w ++ f :: l) i 1 none (f :: l) := by
  unfold variableInit
  cases h with
  | none =>
    refine (Eats.read hf.prim.seen).bind ?_
    refine Eats.ifn hf.prim.curly ?_
    have hf' := hf
    simp only [ExprEnd, List.mem_cons, List.not_mem_nil, or_false] at hf'
    refine Eats.ifn (by rcases hf' with h | h | h | h | h <;> simp [h]) ?_
    refine Eats.ifn (by rcases hf' with h | h | h | h | h <;> simp [h]) ?_
    exact Eats.push.bind (Eats.ret hk)
  | assign h r =>
    refine (Eats.read (seen_of h rfl)).bind ?_
    refine Eats.ifn (by simp [h]) ?_
    refine Eats.ifp h ?_
    exact ((expr_p r).2 false f l hf _ _).bind (Eats.ret (Nat.le_refl _))

/-! ## The name of what is declared -/

theorem comps_tail {ns : List NComp} {w : List Token} (h : CompsT ns w) : splitTail ns = (ns, .empty) := by
  have key : ∀ (a : List NComp) {ns : List NComp} {w : List Token}, CompsT ns w → splitTail a = (a, .empty) →
      splitTail (a ++ ns) = (a ++ ns, .empty) := by
    intro a ns
    induction ns generalizing a with
    | nil => intro w _ ha; rw [List.append_nil]; exact ha
    | cons c ns ih =>
      intro w h ha
      rw [List.append_cons]
      cases h with
      | ident hn hs r => exact ih _ r (by simp [splitTail, valid, hs])
      | tmpl hn ho hargs hs r => exact ih _ r (by simp [splitTail, valid, hs])
  exact key [] h rfl

/-- The name of what is declared is read. -/
theorem qid_last {ns : List NComp} {u : Unqual} {w w' : List Token} {f : Token} {m : QMode} (hn : CompsT ns w)
    (hu : LastT u w') (hf : NameEnd f) :
    Eats (fun x => x (.qid m)) k pv (w ++ (w' ++ f :: l)) (.mk ns u) 1 none (f :: l) := by
  have start : ∀ (g : Token) (v : List Token), w' ++ f :: l = g :: v → skipped g.type = false →
      (g.type ≠ .identifier ∨ g.text ∈ nestedStop) → u.isEmpty = false →
      (∀ k pv, Eats (fun _ => unqualName) k pv (g :: v) u 1 none (f :: l)) →
      Eats (fun x => x (.qid m)) k pv (w ++ (w' ++ f :: l)) (.mk ns u) 1 none (f :: l) := by
    intro g v e h1 h2 h3 h4
    rw [e]
    refine Eats.call (c := .qid m) ?_
    show Eats (fun x => qidBody x m) _ _ _ _ _ _ _
    unfold qidBody
    have hc := comps_p hn [] (g :: v) (g :: v) ns 0 (fun k pv => (nested_stop h1 h2).done (Nat.zero_le _)) k pv
    refine Eats.bind (α := List NComp) hc ?_
    rw [comps_tail hn]
    dsimp only
    refine Eats.ifp rfl ?_
    refine (h4 _ _).bind ?_
    refine Eats.ifn ?_ (Eats.ret (Nat.le_refl _))
    simp [QId.isComplete, QId.isNestedOnly, QId.unqual, h3]
  cases hu with
  | ident h => exact qid_name (comps_p hn) (unq_p (.ident h)) hf
  | dtor ht h =>
    refine start _ _ rfl (seen_of ht rfl) (by simp [ht]) rfl (fun k pv => ?_)
    unfold unqualName
    refine (Eats.read (seen_of ht rfl)).bind ?_
    refine Eats.ifp ht ?_
    refine (Eats.read h.seen).bind ?_
    refine Eats.ifn (by simp [h.1]) ?_
    exact (Eats.check (by simp [h.ne (w := (bs ['d', 'e', 'c', 'l', 't', 'y', 'p', 'e'])) (by decide)])).bind (Eats.ret (by omega))
  | op hk ho =>
    refine start _ _ rfl (seen_of hk.1 rfl) (Or.inr (by rw [hk.2]; decide)) rfl (fun k pv => ?_)
    have h1 : ∀ x : TT, x ∈ [TT.leftShift, .rightShift, .singlePlus, .doublePlus, .singleMinus, .doubleMinus, .star,
        .arrow, .forwardSlash, .singleEqual, .doubleEqual, .notEqual, .plusEqual, .minusEqual, .starEqual, .slashEqual,
        .openAngle, .closeAngle, .lessThanOrEqual, .greaterThanOrEqual] →
        skipped x = false ∧ operatorToken x = true ∧ x ≠ .openParen ∧ x ≠ .openSquare := by decide
    obtain ⟨h1, h2, h3, h4⟩ := h1 _ ho
    unfold unqualName
    refine (Eats.read (seen_of hk.1 rfl)).bind ?_
    refine Eats.ifn (by simp [hk.1]) ?_
    refine Eats.ifp hk ?_
    unfold operatorName
    refine (Eats.read h1).bind ?_
    refine Eats.ifp h2 ?_
    refine Eats.ifn h3 ?_
    exact Eats.ifn h4 (Eats.ret (by omega))
  | opCall hk ho hc =>
    refine start _ _ rfl (seen_of hk.1 rfl) (Or.inr (by rw [hk.2]; decide)) rfl (fun k pv => ?_)
    unfold unqualName
    refine (Eats.read (seen_of hk.1 rfl)).bind ?_
    refine Eats.ifn (by simp [hk.1]) ?_
    refine Eats.ifp hk ?_
    unfold operatorName
    refine (Eats.read (seen_of ho rfl)).bind ?_
    refine Eats.ifp (by rw [ho]; rfl) ?_
    refine Eats.ifp ho ?_
    refine (Eats.read (seen_of hc rfl)).bind ?_
    exact Eats.ifp hc (Eats.ret (by omega))
  | opIndex hk ho hc =>
    refine start _ _ rfl (seen_of hk.1 rfl) (Or.inr (by rw [hk.2]; decide)) rfl (fun k pv => ?_)
    unfold unqualName
    refine (Eats.read (seen_of hk.1 rfl)).bind ?_
    refine Eats.ifn (by simp [hk.1]) ?_
    refine Eats.ifp hk ?_
    unfold operatorName
    refine (Eats.read (seen_of ho rfl)).bind ?_
    refine Eats.ifp (by rw [ho]; rfl) ?_
    refine Eats.ifn (by simp [ho]) ?_
    refine Eats.ifp ho ?_
    refine (Eats.read (seen_of hc rfl)).bind ?_
    exact Eats.ifp hc (Eats.ret (by omega))

/-- The first loop over a declarator: the name. -/
theorem phase1_name {ns : List NComp} {u : Unqual} {w w' : List Token} {f : Token} {abs q : Bool}
    {chain : List Prod} (hn : CompsT ns w) (hu : LastT u w') (hf : NameEnd f) :
    Eats (fun x => x (.phase1 true abs chain q)) k pv (w ++ (w' ++ f :: l)) { chain := chain, qid := .mk ns u } 1 none
      (f :: l) := by
  refine Eats.call (c := .phase1 true abs chain q) ?_
  show Eats (fun x => phase1Body x true abs chain q) _ _ _ _ _ _ _
  unfold phase1Body
  refine (qid_last hn hu hf).bind ?_
  refine Eats.ifp ?_ ?_
  · cases hu <;> rfl
  · exact Eats.ifn (by simp) (Eats.ret (Nat.le_refl _))

/-! ## What stands behind the name -/

/-- The token ends a declarator. -/
def SufEnd (f : Token) : Prop :=
  f.type ∈ [TT.semicolon, .comma, .singleEqual, .openCurly, .closeParen]

/-- The token does not continue a list of parameters. -/
structure QualEnd (f : Token) : Prop extends NameEnd f where
  ident : f.type ≠ .identifier
  amp : f.type ≠ .singleAmpersand
  amps : f.type ≠ .doubleAmpersand
  arrow : f.type ≠ .arrow

theorem SufEnd.qual {f : Token} (h : SufEnd f) : QualEnd f := by
  simp only [SufEnd, List.mem_cons, List.not_mem_nil, or_false] at h
  rcases h with h | h | h | h | h <;> constructor <;> first | constructor <;> simp [h, skipped] | simp [h]

theorem quals_p {w : List Token} (h : QualsT w) {f : Token} (hf : QualEnd f) : ∀ {acc : List Token} {k : Nat}
    {pv : Option Token}, 1 ≤ k →
    Eats (fun x => x (.quals acc)) k pv (w ++ f :: l) (acc ++ w : List Token) 1 none (f :: l) := by
  induction w with
  | nil =>
    intro acc k pv hk
    refine Eats.call (c := .quals acc) ?_
    show Eats (fun x => qualsBody x acc) _ _ _ _ _ _ _
    unfold qualsBody
    refine (Eats.read hf.seen).bind ?_
    refine Eats.ifn (fun h => hf.ident h.1) ?_
    refine Eats.ifn (by simp [hf.amp, hf.amps]) ?_
    rw [List.append_nil]
    exact Eats.push.bind (Eats.ret hk)
  | cons t w ih =>
    intro acc k pv hk
    refine Eats.call (c := .quals acc) ?_
    show Eats (fun x => qualsBody x acc) _ _ _ _ _ _ _
    unfold qualsBody
    have ht := h t (by simp)
    have hs : skipped t.type = false := by rcases ht with h | h | h <;> first | exact seen_of h rfl | exact seen_of h.1 rfl
    have hr := ih (fun t ht => h t (by simp [ht])) (acc := acc ++ [t]) (k := k + 1) (pv := some t) (by omega)
    rw [← List.append_cons] at hr
    refine (Eats.read hs).bind ?_
    rcases ht with h | h
    · exact Eats.ifp h hr
    · exact Eats.ifn (by rcases h with h | h <;> simp [h]) (Eats.ifp h hr)

theorem trailingReturn_none {f : Token} (hv : skipped f.type = false) (hf : f.type ≠ .arrow) :
    Eats (fun x => trailingReturn x) k pv (f :: l) (noTok, .none) k none (f :: l) := by
  unfold trailingReturn
  refine (Eats.read hv).bind ?_
  exact Eats.ifn hf (Eats.push.bind (Eats.ret (Nat.le_refl _)))

/-- Lists of parameters are read. -/
def ParamsP (pl : Params) (w : List Token) : Prop :=
  (∃ o w', w = o :: w' ∧ o.type = .openParen) ∧ ∀ l k pv,
    Eats (fun x => x (.params false)) k pv (w ++ l) pl 1 none l

/-- Parameters are read. -/
def ParamListP (ps : List Param) (c : Token) (w : List Token) : Prop :=
  (∃ n w', w = n :: w' ∧ skipped n.type = false ∧ n.type ≠ .closeParen) ∧ ∀ (acc : List Param) l k pv,
    Eats (fun x => x (.paramLoop false acc)) k pv (w ++ l) (acc ++ ps, c) 1 none l

/-- A parameter is read. -/
def ParamP (specs : List Spec) (d : Dcor) (i : Init) (w : List Token) : Prop :=
  (∃ n w', w = n :: w' ∧ n.type = .identifier) ∧ ∀ (f : Token) (l : List Token), f.type = .comma ∨ f.type = .closeParen →
    ∀ k pv, Eats (fun x => x (.specs .param [] [] false)) k pv (w ++ f :: l) (specs, [.mk d i noTok]) 1 none (f :: l)

/-- What stands behind the name is read. -/
def SufsP (ps : List Prod) (w : List Token) : Prop :=
  (∀ (f : Token) (l : List Token), SufEnd f → ∃ g v, w ++ f :: l = g :: v ∧ QualEnd g) ∧
  ∀ (pre post : List Prod) (f : Token) (l : List Token), SufEnd f → ∀ k pv, 1 ≤ k →
    Eats (fun x => x (.phase2 (pre ++ post) pre.length false)) k pv (w ++ f :: l) (pre ++ ps ++ post : List Prod) 1 none
      (f :: l)

theorem parameterList_p {pl : Params} {quals w : List Token} (h : ParamsP pl w) (hq : QualsT quals) {f : Token}
    (hf : QualEnd f) :
    Eats (fun x => parameterList x) k pv (w ++ (quals ++ f :: l)) (some (pl, quals)) 1 none (f :: l) := by
  obtain ⟨⟨o, w', rfl, ho⟩, h⟩ := h
  unfold parameterList
  refine (Eats.read (seen_of ho rfl)).bind ?_
  refine Eats.ifn (by simp [ho]) ?_
  refine Eats.unmute.bind ?_
  refine Eats.push.bind ?_
  refine (h _ _ _).bind ?_
  exact (quals_p hq hf (Nat.le_refl _)).bind (Eats.ret (Nat.le_refl _))

/-- `f` has a result of the given kind, and consumes the tokens from `l` to `l'`. -/
def EatsTo {β : Type} (f : Rec → M Lim β) (k : Nat) (pv : Option Token) (l : List Token) (B : β → Prop)
    (k' : Nat) (pv' : Option Token) (l' : List Token) : Prop :=
  ∀ p, At k pv l p → ∃ b q, B b ∧ Run f p b q ∧ At k' pv' l' q ∧ Keep p q

theorem Eats.bindTo {α β : Type} {f : Rec → M Lim α} {g : Rec → α → M Lim β} {a : α} {B : β → Prop}
    {k' k'' : Nat} {pv' pv'' : Option Token} {l' l'' : List Token}
    (h : Eats f k pv l a k' pv' l') (h' : EatsTo (fun x => g x a) k' pv' l' B k'' pv'' l'') :
    EatsTo (fun x => f x >>= g x) k pv l B k'' pv'' l'' := by
  intro p hp
  obtain ⟨q, r, hq, kp⟩ := h p hp
  obtain ⟨b, q', hb, r', hq', kp'⟩ := h' q hq
  exact ⟨b, q', hb, r.bind r', hq', kp.trans kp'⟩

theorem EatsTo.bind {α β : Type} {f : Rec → M Lim α} {g : Rec → α → M Lim β} {A : α → Prop} {b : β}
    {k' k'' : Nat} {pv' pv'' : Option Token} {l' l'' : List Token} (h : EatsTo f k pv l A k' pv' l')
    (h' : ∀ a, A a → Eats (fun x => g x a) k' pv' l' b k'' pv'' l'') :
    Eats (fun x => f x >>= g x) k pv l b k'' pv'' l'' := by
  intro p hp
  obtain ⟨a, q, ha, r, hq, kp⟩ := h p hp
  obtain ⟨q', r', hq', kp'⟩ := h' a ha q hq
  exact ⟨q', r.bind r', hq', kp.trans kp'⟩

theorem EatsTo.ifp {β : Type} {c : Prop} [Decidable c] {f g : Rec → M Lim β} {B : β → Prop} {k' : Nat}
    {pv' : Option Token} {l' : List Token} (hc : c) (h : EatsTo f k pv l B k' pv' l') :
    EatsTo (fun x => if c then f x else g x) k pv l B k' pv' l' := by
  simp only [if_pos hc]; exact h

theorem EatsTo.ifn {β : Type} {c : Prop} [Decidable c] {f g : Rec → M Lim β} {B : β → Prop} {k' : Nat}
    {pv' : Option Token} {l' : List Token} (hc : ¬c) (h : EatsTo g k pv l B k' pv' l') :
    EatsTo (fun x => if c then f x else g x) k pv l B k' pv' l' := by
  simp only [if_neg hc]; exact h

theorem Eats.to {β : Type} {f : Rec → M Lim β} {b : β} {B : β → Prop} {k' : Nat}
    {pv' : Option Token} {l' : List Token} (h : Eats f k pv l b k' pv' l') (hb : B b) : EatsTo f k pv l B k' pv' l' := by
  intro p hp
  obtain ⟨q, r⟩ := h p hp
  exact ⟨b, q, hb, r⟩

theorem EatsTo.consumed {α : Type} {a : α} {loc : Int} :
    EatsTo (fun _ => anyTokensConsumed loc >>= fun c => pure (a, c)) k pv l (fun r => r.1 = a) k pv l := by
  intro p hp
  have : ∃ c, anyTokensConsumed loc p = .ok c p := by
    unfold anyTokensConsumed
    cases p.queue <;> exact ⟨_, rfl⟩
  obtain ⟨c, h⟩ := this
  exact ⟨(a, c), p, rfl, .of ((bind_ok h).trans rfl), hp, .refl p⟩

theorem oneParam_p {specs : List Spec} {d : Dcor} {i : Init} {w : List Token} (h : ParamP specs d i w) {f : Token}
    (hf : f.type = .comma ∨ f.type = .closeParen) :
    EatsTo (fun x => oneParam x false) k pv (w ++ f :: l) (fun r => r.1 = some ⟨specs, d, i⟩) 1 none (f :: l) := by
  obtain ⟨⟨n, w', rfl, hn⟩, h⟩ := h
  unfold oneParam
  refine (Eats.read (seen_of hn rfl)).bindTo ?_
  refine EatsTo.ifn (by simp [hn]) ?_
  refine EatsTo.ifn (by simp) ?_
  refine Eats.push.bindTo ?_
  refine (Eats.activity (seen_of hn rfl)).bindTo ?_
  refine (h f l hf _ _).bindTo ?_
  refine Eats.failedSince.bindTo ?_
  refine EatsTo.ifp rfl ?_
  refine Eats.unmute.bindTo ?_
  refine (Eats.pure _).bindTo ?_
  exact EatsTo.consumed

theorem paramLoop_step {new : NewParam} {acc : List Param} {b : List Param × Token} {f : Token} {w l' : List Token}
    (h : EatsTo (fun x => oneParam x false) k pv (w ++ f :: l) (fun r => r.1 = some new) 1 none (f :: l))
    (hf : f.type = .comma ∨ f.type = .closeParen)
    (hb : f.type = .closeParen → ∀ pv, Eats (fun _ => pure (NewParam.add acc (some new) noTok, f)) 2 pv l b 1 none l')
    (hb' : f.type = .comma → ∀ pv, Eats (fun x => x (.paramLoop false (NewParam.add acc (some new) f))) 2 pv l b 1 none
      l') :
    Eats (fun x => x (.paramLoop false acc)) k pv (w ++ f :: l) b 1 none l' := by
  refine Eats.call (c := .paramLoop false acc) ?_
  show Eats (fun x => paramLoopBody x false acc) _ _ _ _ _ _ _
  unfold paramLoopBody
  refine h.bind (fun a ha => ?_)
  obtain ⟨new', c⟩ := a
  cases ha
  refine (Eats.read (by rcases hf with h | h <;> exact seen_of h rfl)).bind ?_
  rcases hf with hf | hf
  · exact Eats.ifn (by rw [hf]; decide) (Eats.ifp hf (hb' hf _))
  · exact Eats.ifp (by rw [hf]; decide) (hb hf _)

theorem specs_t {specs : List Spec} {w : List Token} (h : SpecsT specs w) :
    ∃ n v, w = n :: v ∧ n.type = .identifier := by
  obtain ⟨k1, q, w', k2, rfl, rfl, hk, ⟨ns, u, w1, w2, rfl, rfl, hn, hu⟩, hk2⟩ := h
  cases k1 with
  | cons t k1 => exact ⟨t, _, rfl, (hk t (by simp)).1⟩
  | nil =>
    obtain ⟨n, v, e, h⟩ := first_name hn (unq_p hu).2.1 k2
    exact ⟨n, v, by simpa using e, h.1⟩

/-- Specifiers of a parameter, and what follows. -/
theorem specs_param {specs : List Spec} {w p : List Token} (hs : SpecsT specs w) (hp : PtrToks false p) {f : Token}
    {b : List InitDcor} {l' : List Token} (hf : NameEnd f) (hi : f.type = .identifier → p = [] → Name f)
    (h : ∀ pv, Eats (fun x => parseInitDcors x .param) 1 pv (p ++ f :: l) b 1 none l') :
    Eats (fun x => x (.specs .param [] [] false)) k pv (w ++ (p ++ f :: l)) (specs, b) 1 none l' := by
  obtain ⟨k1, q, w', k2, rfl, rfl, hk, ⟨ns, u, w1, w2, rfl, rfl, hn, hu⟩, hk2⟩ := hs
  simp only [List.append_assoc]
  obtain ⟨g, v, e, hg⟩ := follow_name hk2 hp f l
  refine specs_plain (by simp) hk hn (comps_p hn) (unq_p hu) hk2 e (nameEnd_of hg hf) (fun pv => ?_)
  obtain ⟨g, v, e, hg⟩ := follow_ptr hp f l
  rw [e] at h ⊢
  by_cases hgi : g.type = .identifier
  · rcases hg with h' | ⟨rfl, hp0⟩
    · simp [hgi] at h'
    · exact specs_end_name (Or.inl (hi hgi hp0)) h
  · refine specs_end ?_ hgi h
    rcases hg with h | ⟨rfl, -⟩
    · simp only [List.mem_cons, List.not_mem_nil, or_false] at h
      rcases h with h | h | h <;> exact seen_of h rfl
    · exact hf.seen

/-- A declarator with a name. -/
theorem dcor_named {ns : List NComp} {u : Unqual} {ps : List Prod} {p w w' w'' : List Token} {abs : Bool} {f : Token}
    (hp : PtrToks false p) (hn : CompsT ns w) (hu : LastT u w') (hs : SufsP ps w'') (hf : SufEnd f) (hk : 1 ≤ k) :
    Eats (fun x => x (.dcor [] true abs)) k pv (p ++ (w ++ (w' ++ (w'' ++ f :: l)))) (.mk (ps ++ ptrTrees p) (.mk ns u)) 1
      none (f :: l) := by
  refine Eats.call (c := .dcor [] true abs) ?_
  show Eats (fun x => dcorBody x [] true abs) _ _ _ _ _ _ _
  unfold dcorBody
  obtain ⟨g, v, e, hg⟩ := hs.1 f l hf
  rw [e]
  refine (phase1_ptrs hp hk (fun q k pv hk => phase1_name hn hu hg.toNameEnd)).bind ?_
  refine Eats.ifn (by simp) ?_
  rw [← e, List.append_nil]
  refine (hs.2 [] (ptrTrees p) f l hf _ _ (Nat.le_refl _)).bind ?_
  rw [List.nil_append]
  exact Eats.ret (Nat.le_refl _)

/-- One more production. -/
theorem sufs_next {ps : List Prod} {w : List Token} (h : SufsP ps w) (y : Prod) (pre post : List Prod) {f : Token}
    (hf : SufEnd f) (hk : 1 ≤ k) :
    Eats (fun x => x (.phase2 (insertAt (pre ++ post) pre.length y) (pre.length + 1) false)) k pv (w ++ f :: l)
      (pre ++ y :: ps ++ post : List Prod) 1 none (f :: l) := by
  have := h.2 (pre ++ [y]) post f l hf k pv hk
  rw [show pre ++ [y] ++ post = insertAt (pre ++ post) pre.length y by simp [insertAt],
    show (pre ++ [y]).length = pre.length + 1 by simp,
    show pre ++ [y] ++ ps ++ post = pre ++ y :: ps ++ post by simp] at this
  exact this

/-- The token behind which an initializer may start. -/
theorem init_start {i : Init} {w : List Token} (h : InitT i w) (f : Token) (l : List Token) :
    ∃ g v, w ++ f :: l = g :: v ∧ (g = f ∨ g.type = .singleEqual) := by
  cases h with
  | none => exact ⟨f, l, rfl, Or.inl rfl⟩
  | assign h r => exact ⟨_, _, rfl, Or.inr h⟩

mutual

theorem sufs_p {ps : List Prod} {w : List Token} : SufsT ps w → SufsP ps w
  | .nil => by
    refine ⟨fun f l hf => ⟨f, l, rfl, hf.qual⟩, fun pre post f l hf k pv hk => ?_⟩
    have hf' := hf
    simp only [SufEnd, List.mem_cons, List.not_mem_nil, or_false] at hf'
    rw [List.append_nil]
    exact (phase2_end hf.qual.seen (by rcases hf' with h | h | h | h | h <;> simp [h])
      (by rcases hf' with h | h | h | h | h <;> simp [h])).done hk
  | .array0 ho hc r => by
    refine ⟨fun f l hf => ⟨_, _, rfl, ?_⟩, fun pre post f l hf k pv hk => ?_⟩
    · constructor <;> first | constructor <;> simp [ho, skipped] | simp [ho]
    · rename_i o c ps w
      refine Eats.call (c := .phase2 (pre ++ post) pre.length false) ?_
      show Eats (fun x => phase2Body x (pre ++ post) pre.length false) _ _ _ _ _ _ _
      unfold phase2Body
      refine (Eats.read (seen_of ho rfl)).bind ?_
      refine Eats.ifp ho ?_
      refine Eats.bind (a := ()) (Eats.unmute.bind (Eats.ifn (by simp) (Eats.pure _))) ?_
      refine Eats.bind (a := (noTok, noTok)) (k' := k + 1) (pv' := none) (l' := c :: (w ++ f :: l)) ?_ ?_
      · refine Eats.call (c := .expr true) ?_
        show Eats (fun x => exprBody x true) _ _ _ _ _ _ _
        unfold exprBody
        refine (Eats.read (seen_of hc rfl)).bind ?_
        rw [hc]
        exact Eats.ifp rfl (Eats.push.bind (Eats.ret (Nat.le_refl _)))
      · refine Eats.bind (a := (true, c)) (k' := k + 2) (pv' := some c) (l' := w ++ f :: l) ?_ ?_
        · unfold closeScope
          refine (Eats.read (seen_of hc rfl)).bind ?_
          exact Eats.ifp (by rw [ho, hc]; rfl) (Eats.pure _)
        · refine Eats.ifp rfl ?_
          exact sufs_next (sufs_p r) _ pre post hf (by omega)
  | .array ho h hc r => by
    refine ⟨fun f l hf => ⟨_, _, rfl, ?_⟩, fun pre post f l hf k pv hk => ?_⟩
    · constructor <;> first | constructor <;> simp [ho, skipped] | simp [ho]
    · rename_i o c s e ps w w'
      refine Eats.call (c := .phase2 (pre ++ post) pre.length false) ?_
      show Eats (fun x => phase2Body x (pre ++ post) pre.length false) _ _ _ _ _ _ _
      unfold phase2Body
      refine (Eats.read (seen_of ho rfl)).bind ?_
      refine Eats.ifp ho ?_
      refine Eats.bind (a := ()) (Eats.unmute.bind (Eats.ifn (by simp) (Eats.pure _))) ?_
      rw [show (w ++ c :: w').append (f :: l) = w ++ c :: (w' ++ f :: l) by simp]
      refine ((expr_p h).2 true c _ (by simp [ExprEnd, hc]) _ _).bind ?_
      refine Eats.bind (a := (true, c)) (k' := 2) (pv' := some c) (l' := w' ++ f :: l) ?_ ?_
      · unfold closeScope
        refine (Eats.read (seen_of hc rfl)).bind ?_
        exact Eats.ifp (by rw [ho, hc]; rfl) (Eats.pure _)
      · refine Eats.ifp rfl ?_
        exact sufs_next (sufs_p r) _ pre post hf (by omega)
  | .func h hq r => by
    have hp := params_p h
    have hr := sufs_p r
    rename_i pl quals ps w w'
    refine ⟨fun f l hf => ?_, fun pre post f l hf k pv hk => ?_⟩
    · obtain ⟨⟨o, w', rfl, ho⟩, -⟩ := hp
      refine ⟨o, _, rfl, ?_⟩
      constructor <;> first | constructor <;> simp [ho, skipped] | simp [ho]
    · refine Eats.call (c := .phase2 (pre ++ post) pre.length false) ?_
      show Eats (fun x => phase2Body x (pre ++ post) pre.length false) _ _ _ _ _ _ _
      unfold phase2Body
      obtain ⟨g, v, e, hg⟩ := hr.1 f l hf
      rw [List.append_assoc, List.append_assoc, e]
      have hpl := fun k pv => parameterList_p (k := k) (pv := pv) (l := v) hp hq hg
      obtain ⟨⟨o, w1, rfl, ho⟩, -⟩ := hp
      refine (Eats.read (seen_of ho rfl)).bind ?_
      refine Eats.ifn (by simp [ho]) ?_
      refine Eats.ifp ho ?_
      refine Eats.bind (a := ()) (Eats.unmute.bind (Eats.ifn (by simp) (Eats.pure _))) ?_
      refine Eats.push.bind ?_
      refine (hpl _ _).bind ?_
      refine (trailingReturn_none hg.seen hg.arrow).bind ?_
      rw [← e]
      exact sufs_next hr _ pre post hf (Nat.le_refl _)

theorem params_p {pl : Params} {w : List Token} : ParamsT pl w → ParamsP pl w
  | .none ho hc => by
    refine ⟨⟨_, _, rfl, ho⟩, fun l k pv => ?_⟩
    refine Eats.call (c := .params false) ?_
    show Eats (fun x => paramsBody x false) _ _ _ _ _ _ _
    unfold paramsBody
    refine (Eats.read (seen_of ho rfl)).bind ?_
    refine (Eats.check (by rw [ho]; decide)).bind ?_
    refine Eats.unmute.bind ?_
    refine (Eats.read (seen_of hc rfl)).bind ?_
    exact Eats.ifp (by rw [hc]; decide) (Eats.ret (by omega))
  | .some ho h => by
    refine ⟨⟨_, _, rfl, ho⟩, fun l k pv => ?_⟩
    refine Eats.call (c := .params false) ?_
    show Eats (fun x => paramsBody x false) _ _ _ _ _ _ _
    unfold paramsBody
    refine (Eats.read (seen_of ho rfl)).bind ?_
    refine (Eats.check (by rw [ho]; decide)).bind ?_
    refine Eats.unmute.bind ?_
    obtain ⟨⟨n, w', e, hn, hn'⟩, hl⟩ := paramList_p h
    have hl := hl [] l (k + 1) none
    rw [e] at hl ⊢
    refine (Eats.read hn).bind ?_
    refine Eats.ifn hn' ?_
    refine Eats.push.bind ?_
    exact (Eats.inScope (by simp [openPunc]) hl).bind (Eats.ret (Nat.le_refl _))

theorem paramList_p {ps : List Param} {c : Token} {w : List Token} : ParamListT ps c w → ParamListP ps c w
  | .last h hc => by
    have hp := param_p h
    refine ⟨?_, fun acc l k pv => ?_⟩
    · obtain ⟨⟨n, w', rfl, hn⟩, -⟩ := hp
      exact ⟨n, _, rfl, seen_of hn rfl, by simp [hn]⟩
    · rw [List.append_assoc]
      exact paramLoop_step (oneParam_p hp (Or.inr hc)) (Or.inr hc) (fun _ pv => Eats.ret (by omega))
        (fun h => by simp [hc] at h)
  | .ellipsis he hc => by
    refine ⟨⟨_, _, rfl, seen_of he rfl, by simp [he]⟩, fun acc l k pv => ?_⟩
    rename_i e
    refine paramLoop_step (w := [e]) (new := ⟨[.ellipsis e], .mk [] .none, .none⟩) ?_ (Or.inr hc)
      (fun _ pv => Eats.ret (by omega)) (fun h => by simp [hc] at h)
    · unfold oneParam
      refine (Eats.read (seen_of he rfl)).bindTo ?_
      refine EatsTo.ifp (by simp [he]) ?_
      exact (Eats.ret (by omega)).to rfl
  | .more h hm r => by
    have hp := param_p h
    refine ⟨?_, fun acc l k pv => ?_⟩
    · obtain ⟨⟨n, w', rfl, hn⟩, -⟩ := hp
      exact ⟨n, _, rfl, seen_of hn rfl, by simp [hn]⟩
    · rw [List.append_assoc]
      refine paramLoop_step (oneParam_p hp (Or.inl hm)) (Or.inl hm) (fun h => by simp [hm] at h) (fun _ pv => ?_)
      rw [List.append_cons]
      exact (paramList_p r).2 _ l 2 pv

theorem param_p {specs : List Spec} {d : Dcor} {i : Init} {w : List Token} : ParamT specs d i w → ParamP specs d i w
  | .named hs hp hn hf hi => by
    have hsuf := sufs_p hf
    refine ⟨?_, fun f l hf k pv => ?_⟩
    · obtain ⟨n, v, rfl, h⟩ := specs_t hs
      exact ⟨n, _, rfl, h⟩
    · simp only [List.append_assoc, List.cons_append]
      refine specs_param hs hp ⟨hn.seen, by simp [hn.1], by simp [hn.1]⟩ (fun _ _ => hn) (fun pv => ?_)
      have he : ExprEnd f := by rcases hf with h | h <;> simp [ExprEnd, h]
      obtain ⟨g, v, e, hg⟩ := init_start hi f l
      have hg : SufEnd g := by
        rcases hg with rfl | h
        · rcases hf with h | h <;> simp [SufEnd, h]
        · simp [SufEnd, h]
      rw [e]
      refine (dcor_named hp .nil (.ident hn) hsuf hg (Nat.le_refl _)).bind ?_
      rw [← e]
      exact (init_p hi he (Nat.le_refl _)).bind (Eats.ret (Nat.le_refl _))
  | .abs hs hp hi => by
    refine ⟨?_, fun f l hf k pv => ?_⟩
    · obtain ⟨n, v, rfl, h⟩ := specs_t hs
      exact ⟨n, _, rfl, h⟩
    · simp only [List.append_assoc]
      have he : ExprEnd f := by rcases hf with h | h <;> simp [ExprEnd, h]
      obtain ⟨g, v, e, hg⟩ := init_start hi f l
      have hg : TypeEnd g := by
        refine typeEnd_of ?_
        rcases hg with rfl | h
        · rcases hf with h | h <;> simp [h]
        · simp [h]
      rw [e]
      refine specs_param hs hp hg.toNameEnd (fun h _ => absurd h hg.ident) (fun pv => ?_)
      refine (dcor_abs hp hg (Nat.le_refl _)).bind ?_
      rw [← e]
      exact (init_p hi he (Nat.le_refl _)).bind (Eats.ret (Nat.le_refl _))

end

end

end Verif.CppParse

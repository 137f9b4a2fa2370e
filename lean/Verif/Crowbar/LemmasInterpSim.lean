import Verif.Crowbar.LemmasInterpRun

/-! The Crowbar interpreter against the meaning of programs: the induction. -/

namespace Verif.Crowbar
open Verif

variable (strict : Bool) (outer : List Byte → Option Val)

def EvalClaim (n : Nat) : Prop := ∀ (fr : Frame) (vf : VFrame) (e : Expr) (s : St) (out : List Event), s.WF →
  VarsOk fr vf s → s.out = out →
  Sim strict (fun p s' g => Post strict fr.isVar s s' p g) (eval outer n fr e s) (veval strict outer n vf e out)

def PiecesClaim (n : Nat) : Prop := ∀ (fr : Frame) (vf : VFrame) (ps : List Piece) (acc : List Byte) (s : St)
  (out : List Event), s.WF → VarsOk fr vf s → s.out = out →
  Sim strict (fun t s' t' => Ext s s' ∧ t = acc ++ t') (evalPieces outer n fr ps acc s)
    (vpieces strict outer n vf ps out)

def ArgsClaim (n : Nat) : Prop := ∀ (fr : Frame) (vf : VFrame) (es : List Expr) (s : St) (out : List Event), s.WF →
  VarsOk fr vf s → s.out = out →
  Sim strict (fun ids s' vs => Ext s s' ∧ GivenOk fr.isVar s' s.next ids vs) (evalArgs outer n fr es s)
    (vargs strict outer n vf es out)

def CallClaim (n : Nat) : Prop := ∀ (tr : List (List Byte)) (f : Func) (isVar : Nat → Prop) (lo : Nat)
  (ids : List Nat) (vs : List (Val × Bool)) (s : St) (out : List Event), s.WF → GivenOk isVar s lo ids vs →
  lo ≤ s.next → s.out = out →
  Sim strict (fun p s' g => CPost strict isVar s lo s' p g) (callFunc outer n tr f ids s)
    (vcall strict outer n tr f vs out)

def BlockClaim (n : Nat) : Prop := ∀ (fr : Frame) (vf : VFrame) (b : List Stmt) (s : St) (out : List Event)
  (entry base : Nat) (W : List Byte → Bool), FI fr vf s entry base W → (∀ x, assignsAny x b = true → W x = true) →
  s.out = out →
  Sim strict (fun r s' v => BPost strict fr vf s entry base W r s' v) (execBlock outer n fr b s)
    (vblock strict outer n vf b out)

variable {strict : Bool} {outer : List Byte → Option Val} {n : Nat}

theorem Sim.mapRight {strict : Bool} {post : α → St → β → Prop} {post' : α → St → γ → Prop} {r : Run α} {v : VRun β}
    {f : β → γ} (h : Sim strict post r v) (k : ∀ a s b, post a s b → post' a s (f b)) :
    Sim strict post' r (v.bind fun b out => .ok (f b) out) := by
  cases h with
  | unspec => exact .unspec
  | outside => exact .outside
  | ub h => exact .ub h
  | wrong => exact .wrong
  | fuel => exact .fuel
  | ok e h => exact .ok e (k _ _ _ h)
  | err e => exact .err e

theorem Sim.bindEq {strict : Bool} {post : α → St → β → Prop} {post' : γ → St → δ → Prop} {r : Run α} {v : VRun β}
    {f : α → St → Run γ} {g : β → List Event → VRun δ} (h : Sim strict post r v)
    (k : ∀ a s b out, r = .ok a s → s.out = out → post a s b → Sim strict post' (f a s) (g b out)) :
    Sim strict post' (r.bind f) (v.bind g) := by
  cases h with
  | unspec => exact .unspec
  | outside => exact .outside
  | ub h => exact .ub h
  | wrong => exact .wrong
  | fuel => exact .fuel
  | ok e h => exact k _ _ _ _ rfl e h
  | err e => exact .err e

theorem pieces_step (hE : EvalClaim strict outer n) (hP : PiecesClaim strict outer n) :
    PiecesClaim strict outer (n + 1) := by
  intro fr vf ps acc s out hs hv ho
  cases ps with
  | nil =>
    rw [evalPieces, vpieces]
    exact .ok ho ⟨Ext.refl hs, (List.append_nil _).symm⟩
  | cons pc ps =>
    obtain ⟨lit, e⟩ := pc
    rw [evalPieces, vpieces]
    by_cases hn : e.isNull = true
    · rw [if_pos hn, if_pos hn]
      exact Sim.mapRight (hP fr vf ps (acc ++ lit) s out hs hv ho) fun a s' b h =>
        ⟨h.1, by rw [h.2, List.append_assoc]⟩
    · rw [if_neg hn, if_neg hn]
      refine Sim.bind (hE fr vf e s out hs hv ho) fun p s1 g out1 ho1 h1 => ?_
      rcases deref_cases h1.agrees h1.live with ⟨e1, e2 | e2⟩ | ⟨w, e1, e2⟩
      · rw [e1, e2]; exact .wrong
      · rw [e1]; exact .ub e2
      · rw [e1, e2, Option.bind_some, Option.bind_some, valText_eq]
        cases w.text with
        | none => exact .wrong
        | some t =>
          exact Sim.mapRight (hP fr vf ps (acc ++ lit ++ t) s1 out1 h1.ext.wf (hv.ext h1.ext) ho1) fun a s' b h =>
            ⟨h1.ext.trans h.1, by rw [h.2]; simp⟩

theorem args_step (hE : EvalClaim strict outer n) (hA : ArgsClaim strict outer n) :
    ArgsClaim strict outer (n + 1) := by
  intro fr vf es s out hs hv ho
  cases es with
  | nil =>
    rw [evalArgs, vargs]
    exact .ok ho ⟨Ext.refl hs, .nil⟩
  | cons e es =>
    rw [evalArgs, vargs]
    refine Sim.bind (hE fr vf e s out hs hv ho) fun p s1 g out1 ho1 h1 => ?_
    refine Sim.bind (takeArg_sim hs h1 ho1) fun id s2 v out2 ho2 ⟨x2, g2, o2, f2⟩ => ?_
    refine Sim.bind (hA fr vf es s2 out2 x2.wf (hv.ext x2) ho2) fun ids s3 vs out3 ho3 ⟨x3, a3⟩ => ?_
    refine .ok ho3 ⟨x2.trans x3, .cons (x3.get g2) o2 f2 (fun j c hm e => ?_) (a3.weaken x2.mono)⟩
    have hlt : id < s2.next := x2.wf.lt _ (get_mem g2)
    obtain ⟨ha, hb⟩ := a3.mem hm
    subst e
    have hvar : fr.isVar j := ha.resolve_right (by omega)
    obtain ⟨x, hx⟩ := hvar
    obtain ⟨w, _, hw⟩ := hv.here x j hx
    have hlt' : j < s.next := hs.lt _ (get_mem hw)
    constructor
    · cases hbb : g.borrowed with
      | true => rfl
      | false => have := f2 hbb; omega
    · cases hc : c with
      | true => rfl
      | false => have := hb hc; omega

theorem call_step (hB : BlockClaim strict outer n) : CallClaim strict outer (n + 1) := by
  intro tr f isVar lo ids vs s out hs hg hlo ho
  rw [callFunc, vcall, hg.length]
  by_cases hl : vs.length ≠ f.params.length
  · rw [if_pos hl, if_pos hl]; exact .wrong
  · rw [if_neg hl, if_neg hl]
    cases f.body with
    | none => exact .wrong
    | some body =>
      dsimp only
      by_cases hc : clash body f.params vs = true
      · rw [if_pos hc]; exact .unspec
      · rw [if_neg hc]
        apply leaveErr_sim
        have hlen : ids.length = f.params.length := hg.length.trans (Classical.not_not.1 hl)
        have hb := bind_sim (vars := fun _ => none) (vvars := fun _ => none) hg hlen (by simpa using hc)
          ⟨fun _ _ => rfl, fun _ _ e => (by cases e), fun _ _ e => (by cases e), fun _ _ e => (by cases e),
            fun _ _ _ _ e => (by cases e)⟩ (fun _ _ e => by cases e)
        refine Sim.bind (hB ⟨f.name :: tr, bindParams f.params ids fun _ => none⟩
          ⟨f.name :: tr, f.params, vbind f.params (vs.map Prod.fst) fun _ => none⟩ body s out s.next s.objs.length
          (fun x => assignsAny x body) ⟨hs, ⟨rfl, hb.gone, hb.here⟩, fun x id hp hx => ?_, hb.alias,
            fun i o _ hm => hs.lt o (List.mem_of_getElem? hm), Nat.le_refl _, Nat.le_refl _⟩ (fun _ h => h) ho)
          fun r s' v out' ho' h' => ?_
        · rcases bindParams_mem hx with a | a
          · rw [List.contains_iff_mem.2 a] at hp; cases hp
          · cases a
        · exact leave_sim hs hlo hb.origin hb.mine h' ho'

theorem eval_step (hE : EvalClaim strict outer n) (hP : PiecesClaim strict outer n) (hA : ArgsClaim strict outer n)
    (hC : CallClaim strict outer n) : EvalClaim strict outer (n + 1) := by
  intro fr vf e s out hs hv ho
  cases e with
  | null => rw [eval, veval]; exact .wrong
  | name x =>
    rw [eval, veval]
    unfold lookupName
    cases hx : fr.vars x with
    | some id =>
      obtain ⟨v, a, b⟩ := hv.here x id hx
      rw [a]
      refine .ok ho ⟨Ext.refl hs, fun w hw => ?_, fun i e => ?_, fun i e => ?_, fun h => (by cases h), fun _ q e => ?_,
        fun _ h => (by cases h)⟩
      · rw [show s.read (.obj id) = some v from b] at hw
        cases hw; rfl
      · cases e; exact hs.lt _ (get_mem b)
      · cases e; exact .inl ⟨x, hx⟩
      · cases e; exact ⟨v, b⟩
    | none =>
      rw [hv.gone x hx]
      dsimp only
      cases outer x with
      | none => exact fail_sim ho hv.trace
      | some v => exact .ok ho (post_static (Ext.refl hs))
  | int v => rw [eval, veval]; exact .ok ho (post_static (Ext.refl hs))
  | str pieces =>
    rw [eval, veval]
    refine Sim.bind (hP fr vf pieces [] s out hs hv ho) fun t s1 t' out1 ho1 h1 => ?_
    have ht : t = t' := h1.2
    subst ht
    split
    · refine push_sim h1.1.wf fun s' _ _ e he hg hp => .ok (e.trans ho1) ?_
      exact post_new (h1.1.trans he) hg hp h1.1.mono
    · exact .outside
  | prop o x =>
    rw [eval, veval]
    refine Sim.bind (hE fr vf o s out hs hv ho) fun p s1 g out1 ho1 h1 => ?_
    rcases deref_cases h1.agrees h1.live with ⟨e1, e2 | e2⟩ | ⟨w, e1, e2⟩
    · rw [e1, e2]; exact .wrong
    · rw [e1]; exact .ub e2
    · rw [e1, e2]
      cases w with
      | func f => exact .unspec
      | print => exact .unspec
      | u32 v => exact fail_sim ho1 hv.trace
      | bool b => exact fail_sim ho1 hv.trace
      | str t => exact fail_sim ho1 hv.trace
  | bin op l r =>
    rw [eval, veval]
    refine Sim.bind (hE fr vf l s out hs hv ho) fun p s1 g out1 ho1 h1 => ?_
    refine Sim.bind (hE fr vf r s1 out1 h1.ext.wf (hv.ext h1.ext) ho1) fun q s2 h out2 ho2 h2 => ?_
    rcases deref_cases (agrees_ext h1.ext.wf h2.ext h1.agrees h1.bound)
      (fun e => live_ext h2.ext (h1.live e)) with ⟨e1, e2 | e2⟩ | ⟨a, e1, e2⟩
    · rw [e1, e2]; exact .wrong
    · rw [e1]; exact .ub e2
    · rw [e1, e2]
      rcases deref_cases h2.agrees h2.live with ⟨e3, e4 | e4⟩ | ⟨b, e3, e4⟩
      · rw [e3, e4]; exact .wrong
      · rw [e3]; exact .ub e4
      · rw [e3, e4]
        exact opResult_sim (binVal_sim op a b) (h1.ext.trans h2.ext) ho2 hv.trace
  | un op e =>
    rw [eval, veval]
    refine Sim.bind (hE fr vf e s out hs hv ho) fun p s1 g out1 ho1 h1 => ?_
    rcases deref_cases h1.agrees h1.live with ⟨e1, e2 | e2⟩ | ⟨w, e1, e2⟩
    · rw [e1, e2]; exact .wrong
    · rw [e1]; exact .ub e2
    · rw [e1, e2]
      exact opResult_sim (unVal_sim op w) h1.ext ho1 hv.trace
  | call c args =>
    rw [eval, veval]
    refine Sim.bind (hE fr vf c s out hs hv ho) fun p s1 g out1 ho1 h1 => ?_
    refine Sim.bind (hA fr vf args s1 out1 h1.ext.wf (hv.ext h1.ext) ho1) fun ids s2 vs out2 ho2 ⟨x2, a2⟩ => ?_
    rcases deref_cases (agrees_ext h1.ext.wf x2 h1.agrees h1.bound)
      (fun e => live_ext x2 (h1.live e)) with ⟨e1, e2 | e2⟩ | ⟨w, e1, e2⟩
    · rw [e1, e2]; exact .wrong
    · rw [e1]; exact .ub e2
    · rw [e1, e2]
      cases w with
      | func f =>
        dsimp only
        rw [hv.trace]
        exact Sim.imp (hC vf.trace f fr.isVar s1.next ids vs s2 out2 x2.wf a2 x2.mono ho2) fun p s' g h =>
          h.post hs (h1.ext.trans x2) h1.ext.mono
      | print =>
        dsimp only
        cases a2 with
        | nil => exact .wrong
        | @cons id ids v b vs g2 _ _ _ a3 =>
          cases a3 with
          | cons _ _ _ _ _ => exact .wrong
          | nil =>
            dsimp only
            rw [g2]
            dsimp only
            have hx := h1.ext.trans x2
            have hx' : ∀ o, Ext s { s2 with out := o } := fun o => ⟨⟨hx.wf.nodup, hx.wf.lt⟩, hx.pre, hx.mono, hx.new⟩
            unfold doPrint
            rw [valText_eq]
            cases v with
            | func f => exact fail_sim ho2 hv.trace
            | print => exact fail_sim ho2 hv.trace
            | u32 k => exact .ok (by show s2.out ++ _ = _; rw [ho2]) (post_nothing (hx' _))
            | str t => exact .ok (by show s2.out ++ _ = _; rw [ho2]) (post_nothing (hx' _))
            | bool t =>
              cases t <;> exact .ok (by show s2.out ++ _ = _; rw [ho2]) (post_nothing (hx' _))
      | u32 v => exact fail_sim ho2 hv.trace
      | bool v => exact fail_sim ho2 hv.trace
      | str v => exact fail_sim ho2 hv.trace

theorem cond_cases {strict : Bool} {s : St} {p : Option Ptr} {g : Value} (h : Agrees s p g.val)
    (hl : strict = true → ∀ q, p = some q → ∃ v, s.read q = some v) :
    (asCond p s = none ∧ (g.cond = none ∨ strict = false)) ∨ ∃ b, asCond p s = some b ∧ g.cond = some b := by
  unfold asCond Value.cond
  rcases deref_cases h hl with ⟨e, e' | e'⟩ | ⟨w, e, e'⟩
  · rw [e, e']; exact .inl ⟨rfl, .inl rfl⟩
  · rw [e]; exact .inl ⟨rfl, .inr e'⟩
  · rw [e, e']
    cases w with
    | bool b => exact .inr ⟨b, rfl, rfl⟩
    | _ => exact .inl ⟨rfl, .inl rfl⟩

/-- A statement followed by the rest of the block. -/
theorem then_sim {fr : Frame} {vf : VFrame} {s : St} {entry base : Nat} {W : List Byte → Bool} {rest : List Stmt}
    (hB : BlockClaim strict outer n) (h : FI fr vf s entry base W) (hr : ∀ x, assignsAny x rest = true → W x = true)
    {r : Run (Frame × Flow)} {v : VRun (VFrame × VFlow)}
    (k : Sim strict (fun r s' v => BPost strict fr vf s entry base W r s' v) r v) :
    Sim strict (fun r s' v => BPost strict fr vf s entry base W r s' v)
      (r.bind fun r s' =>
        match r.2 with
        | .next => execBlock outer n r.1 rest s'
        | .ret p => .ok (r.1, .ret p) s')
      (v.bind fun r out =>
        match r.2 with
        | none => vblock strict outer n r.1 rest out
        | some g => .ok (r.1, some g) out) := by
  refine Sim.bind k fun r s1 v out1 ho1 h1 => ?_
  obtain ⟨fr1, f⟩ := r
  obtain ⟨vf1, w⟩ := v
  cases h1.flow with
  | next hf =>
    exact Sim.imp (hB fr1 vf1 rest s1 out1 entry base W hf hr ho1) fun _ _ _ h2 => h1.trans h.wf h.entry_le h2
  | ret hf => exact .ok ho1 h1

theorem eval_name {fr : Frame} {x : List Byte} {s s' : St} {id : Nat}
    (h : eval outer n fr (.name x) s = .ok (some (.obj id)) s') : fr.vars x = some id := by
  cases n with
  | zero => rw [eval] at h; cases h
  | succ n =>
    rw [eval] at h
    unfold lookupName at h
    cases hx : fr.vars x with
    | some j => rw [hx] at h; cases h; rfl
    | none =>
      rw [hx] at h
      dsimp only at h
      cases ho : outer x with
      | none => rw [ho] at h; cases h
      | some v => rw [ho] at h; cases h

theorem block_step (hE : EvalClaim strict outer n) (hB : BlockClaim strict outer n) :
    BlockClaim strict outer (n + 1) := by
  intro fr vf b s out entry base W h hW ho
  cases b with
  | nil => rw [execBlock, vblock]; exact .ok ho (BPost.refl h)
  | cons st rest =>
    have hrest : ∀ x, assignsAny x rest = true → W x = true := fun x e => hW x (by
      rw [assignsAny, e, Bool.or_true])
    have hst : ∀ x, st.assigns x = true → W x = true := fun x e => hW x (by
      rw [assignsAny, e, Bool.true_or])
    cases st with
    | if_ c t f =>
      rw [execBlock, vblock]
      refine Sim.bind (hE fr vf c s out h.wf h.vars ho) fun p s1 g out1 ho1 h1 => ?_
      rcases cond_cases h1.agrees h1.live with ⟨e1, e2 | e2⟩ | ⟨b, e1, e2⟩
      · rw [e1, e2]; exact .wrong
      · rw [e1]; exact .ub e2
      · rw [e1, e2]
        dsimp only
        cases t with
        | none => exact .wrong
        | some tb =>
          dsimp only
          have hc := h1.ext.cut h.wf
          refine Sim.imp (then_sim hB (h.same hc) hrest
            (hB fr vf (if b then tb else f.getD []) _ out1 entry base W (h.same hc) ?_ ho1)) fun _ _ _ k => k.same hc
          intro x e
          refine hst x ?_
          rw [Stmt.assigns]
          cases b with
          | true => rw [show assignsOpt x (some tb) = assignsAny x tb by rw [assignsOpt]]; rw [show assignsAny x tb = true from e]; rfl
          | false =>
            cases f with
            | none => cases e
            | some fb => rw [show assignsOpt x (some fb) = assignsAny x fb by rw [assignsOpt]]; rw [show assignsAny x fb = true from e, Bool.or_true]
    | while_ c b =>
      rw [execBlock, vblock]
      refine Sim.bind (hE fr vf c s out h.wf h.vars ho) fun p s1 g out1 ho1 h1 => ?_
      rcases cond_cases h1.agrees h1.live with ⟨e1, e2 | e2⟩ | ⟨b', e1, e2⟩
      · rw [e1, e2]; exact .wrong
      · rw [e1]; exact .ub e2
      · rw [e1, e2]
        have hc := h1.ext.cut h.wf
        cases b' with
        | false =>
          exact Sim.imp (hB fr vf rest _ out1 entry base W (h.same hc) hrest ho1) fun _ _ _ k => k.same hc
        | true =>
          dsimp only
          cases b with
          | none => exact .wrong
          | some body =>
            refine Sim.imp (then_sim hB (h.same hc) hW
              (hB fr vf body _ out1 entry base W (h.same hc) ?_ ho1)) fun _ _ _ k => k.same hc
            intro x e
            refine hst x ?_
            rw [Stmt.assigns, assignsOpt]
            exact e
    | assign l r =>
      rw [execBlock, vblock]
      cases hl : l.asName with
      | some x =>
        dsimp only
        refine Sim.bind (hE fr vf r s out h.wf h.vars ho) fun p s1 g out1 ho1 h1 => ?_
        have hw : W x = true := hst x (by rw [Stmt.assigns, hl]; exact beq_self_eq_true _)
        have hspec : ((hand strict g out1).bind fun v out =>
            match vf.vars x with
            | some old =>
              if old.ty = v.ty then
                vblock strict outer n { vf with vars := fun y => if y = x then some v else vf.vars y } rest out
              else .stop .wrong
            | none => vblock strict outer n { vf with vars := fun y => if y = x then some v else vf.vars y } rest out)
            = (vassign strict vf x g out1).bind fun vf' out => vblock strict outer n vf' rest out := by
          unfold vassign
          cases hand strict g out1 with
          | ok v out2 =>
            show (match vf.vars x with | some old => _ | none => _) = VRun.bind (match vf.vars x with | some old => _ | none => _) _
            cases vf.vars x with
            | none => rfl
            | some old =>
              dsimp only
              split <;> rfl
          | err _ => rfl
          | stop _ => rfl
        refine cast (congrArg (Sim strict _ _) hspec.symm) ?_
        refine Sim.bind (assign_sim h hw h1 ho1) fun fr2 s2 vf2 out2 ho2 h2 => ?_
        cases h2.flow with
        | next hf =>
          exact Sim.imp (hB fr2 vf2 rest s2 out2 entry base W hf hrest ho2) fun _ _ _ h3 =>
            h2.trans h.wf h.entry_le h3
      | none =>
        dsimp only
        refine Sim.bind (hE fr vf l s out h.wf h.vars ho) fun p s1 g out1 ho1 h1 => ?_
        refine Sim.bind (hE fr vf r s1 out1 h1.ext.wf (h.vars.ext h1.ext) ho1) fun q s2 g2 out2 ho2 h2 => ?_
        exact .unspec
    | eval e =>
      rw [execBlock, vblock]
      refine Sim.bind (hE fr vf e s out h.wf h.vars ho) fun p s1 g out1 ho1 h1 => ?_
      have hc := h1.ext.cut h.wf
      exact Sim.imp (hB fr vf rest _ out1 entry base W (h.same hc) hrest ho1) fun _ _ _ k => k.same hc
    | ret e =>
      rw [execBlock, vblock]
      refine Sim.bindEq (hE fr vf e s out h.wf h.vars ho) fun p s1 g out1 heq ho1 h1 => ?_
      by_cases hsb : (strict && g.borrowed) = true
      · rw [if_pos hsb]; exact .unspec
      · rw [if_neg hsb]
        refine .ok ho1 ⟨h1.ext.wf, h1.ext.mono, fun i o _ hi => ⟨o, ?_, rfl, fun _ => rfl⟩, fun _ _ e => e,
          fun x id a b => ?_, fun o hm => (h1.ext.new o hm).imp_left fun a => ⟨o, a, rfl⟩, ?_, rfl,
          .ret ⟨h1.agrees, h1.bound, fun id e' => ?_, fun hb id e' => ?_, fun hst id e' => ?_⟩⟩
        · obtain ⟨t, et⟩ := h1.ext.pre
          rw [← et, List.getElem?_append_left (List.getElem?_eq_some_iff.1 hi).1]
          exact hi
        · rw [a] at b; cases b
        · exact Nat.le_trans h.base_le h1.ext.pre.length_le
        · rcases h1.origin id e' with ⟨x, hx⟩ | a
          · cases hc : vf.params.contains x with
            | true => exact .inl ⟨x, hc, hx⟩
            | false => exact .inr (h.own x id hc hx)
          · exact .inr (Nat.le_trans h.entry_le a)
        · have hb' : stillBorrowed vf.params e g = false := hb
          cases hg : g.borrowed with
          | false => exact Nat.le_trans h.entry_le (h1.fresh hg id e')
          | true =>
            unfold stillBorrowed at hb'
            cases e with
            | name x =>
              rw [hg] at hb'
              have hb' : (true && vf.params.contains x) = false := hb'
              rw [Bool.true_and] at hb'
              subst e'
              exact h.own x id hb' (eval_name heq)
            | _ => rw [hg] at hb'; cases hb'
        · have hg : g.borrowed = false := by
            rw [hst, Bool.true_and] at hsb
            simpa using hsb
          exact ⟨Nat.le_trans h.entry_le (h1.fresh hg id e'), h1.top hst hg id e'⟩
    | func a b c => rw [execBlock, vblock]; exact .wrong

theorem interp_sim (strict : Bool) (outer : List Byte → Option Val) (n : Nat) :
    EvalClaim strict outer n ∧ PiecesClaim strict outer n ∧ ArgsClaim strict outer n ∧ CallClaim strict outer n ∧
      BlockClaim strict outer n := by
  induction n with
  | zero =>
    refine ⟨?_, ?_, ?_, ?_, ?_⟩
    · intro fr vf e s out _ _ _; rw [eval, veval]; exact .fuel
    · intro fr vf e acc s out _ _ _; rw [evalPieces, vpieces]; exact .fuel
    · intro fr vf e s out _ _ _; rw [evalArgs, vargs]; exact .fuel
    · intro tr f isVar lo ids vs s out _ _ _ _; rw [callFunc, vcall]; exact .fuel
    · intro fr vf b s out entry base W _ _ _; rw [execBlock, vblock]; exact .fuel
  | succ n ih =>
    obtain ⟨hE, hP, hA, hC, hB⟩ := ih
    exact ⟨eval_step hE hP hA hC, pieces_step hE hP, args_step hE hA, call_step hB, block_step hE hB⟩

end Verif.Crowbar

import Verif.TConv.Spec
import Verif.Enc.Props
/-!
# Text converter — helper lemmas
-/
namespace Verif.TConv
open Verif Verif.Enc Spec

theorem Spec.GoodDec.nil {dec} (h : GoodDec dec) : (dec []).point < 0 := by
  refine Classical.byContradiction fun hc => ?_
  have := h.size [] (by omega)
  simp at this; omega

theorem Spec.GoodDec.step {dec} (h : GoodDec dec) {T : List Byte} (hp : 0 ≤ (dec T).point) :
    (T.drop (dec T).numBytes).length < T.length := by
  have := h.size T hp
  simp only [List.length_drop]; omega

theorem points_fuel {dec} (h : GoodDec dec) : ∀ (a b : Nat) (T : List Byte), T.length ≤ a →
    T.length ≤ b → points dec a T = points dec b T := by
  intro a
  induction a with
  | zero =>
    intro b T ha hb
    have hT : T = [] := List.length_eq_zero_iff.mp (by omega)
    subst hT
    cases b <;> simp [points]
  | succ a ih =>
    intro b T ha hb
    cases b with
    | zero =>
      have hT : T = [] := List.length_eq_zero_iff.mp (by omega)
      subst hT; simp [points]
    | succ b =>
      simp only [points]
      split
      · rfl
      · rename_i hh
        have hp : 0 ≤ (dec T).point := by omega
        have := h.step hp
        rw [ih b _ (by omega) (by omega)]

/-- The points of a text. -/
def pts (dec : List Byte → DecodeResult) (T : List Byte) : List Nat := points dec T.length T

theorem pts_stop {dec : List Byte → DecodeResult} {T : List Byte} (hp : (dec T).point < 0) :
    pts dec T = [] := by
  unfold pts
  cases hT : T.length <;> simp [points, hp]

theorem pts_step {dec} (h : GoodDec dec) {T : List Byte} (hp : 0 ≤ (dec T).point) :
    pts dec T = (dec T).point.toNat :: pts dec (T.drop (dec T).numBytes) := by
  have hl := h.step hp
  have hne : T ≠ [] := by rintro rfl; have := h.nil; omega
  obtain ⟨n, hn⟩ : ∃ n, T.length = n + 1 := ⟨T.length - 1, by omega⟩
  unfold pts
  rw [hn]
  simp only [points]
  rw [if_neg (by simp [hne]; omega)]
  congr 1
  exact points_fuel h _ _ _ (by omega) (by omega)

theorem noStray_fuel {dec} (h : GoodDec dec) : ∀ (a b : Nat) (T : List Byte), T.length ≤ a →
    T.length ≤ b → (NoStray dec a T ↔ NoStray dec b T) := by
  intro a
  induction a with
  | zero =>
    intro b T ha hb
    have hT : T = [] := List.length_eq_zero_iff.mp (by omega)
    subst hT
    cases b <;> simp [NoStray]
  | succ a ih =>
    intro b T ha hb
    cases b with
    | zero =>
      have hT : T = [] := List.length_eq_zero_iff.mp (by omega)
      subst hT; simp [NoStray]
    | succ b =>
      simp only [NoStray]
      by_cases hp : (dec T).point < 0
      · simp [hp]
      · have := h.step (T := T) (by omega)
        rw [ih b _ (by omega) (by omega)]

/-- No stray bytes in a text. -/
def NS (dec : List Byte → DecodeResult) (T : List Byte) : Prop := NoStray dec T.length T

theorem NS_step {dec} (h : GoodDec dec) {T : List Byte} (hp : 0 ≤ (dec T).point) :
    NS dec T ↔ (4 ≤ T.length → (dec T).status ≠ .truncated) ∧
      NS dec (T.drop (dec T).numBytes) := by
  have hl := h.step hp
  have hne : T ≠ [] := by rintro rfl; have := h.nil; omega
  obtain ⟨n, hn⟩ : ∃ n, T.length = n + 1 := ⟨T.length - 1, by omega⟩
  unfold NS
  rw [hn]
  simp only [NoStray]
  rw [noStray_fuel h n _ _ (by omega) (Nat.le_refl _)]
  have hp' : ¬ (dec T).point < 0 := by omega
  rw [hn]
  simp [hne, hp']

/-- The text `T'` is what is left of `T` after some characters: whatever decoding a character
preserves holds of `T'` if it holds of `T`. -/
def Later (dec : List Byte → DecodeResult) (T T' : List Byte) : Prop :=
  ∀ P : List Byte → Prop, (∀ V, 0 ≤ (dec V).point → P V → P (V.drop (dec V).numBytes)) → P T → P T'

theorem Later.refl {dec T} : Later dec T T := fun _ _ h => h

theorem Later.trans {dec A B C} (h1 : Later dec A B) (h2 : Later dec B C) : Later dec A C :=
  fun P hP h => h2 P hP (h1 P hP h)

theorem Later.step {dec} {T : List Byte} (hp : 0 ≤ (dec T).point) :
    Later dec T (T.drop (dec T).numBytes) := fun _ hP h => hP T hp h

theorem Later.noStray {dec} (h : GoodDec dec) {T T' : List Byte} (hl : Later dec T T') :
    NS dec T → NS dec T' :=
  hl (NS dec) fun _ hp hV => ((NS_step h hp).mp hV).2

/-- The conversion of a text. -/
def conv (dst src : Encoding) (T : List Byte) : List Byte := converted dst src T

theorem conv_stop {dst src : Encoding} (h : GoodDec src.dec) {T : List Byte}
    (hp : (src.dec T).point < 0) : conv dst src T = [] := by
  have := pts_stop hp
  unfold pts at this
  simp [conv, converted, this]

theorem conv_step {dst src : Encoding} (h : GoodDec src.dec) {T : List Byte}
    (hp : 0 ≤ (src.dec T).point) : conv dst src T =
      (dst.enc 4 (src.dec T).point.toNat).getD [] ++ conv dst src (T.drop (src.dec T).numBytes) := by
  have := pts_step h hp
  unfold pts at this
  simp [conv, converted, this]

theorem conv_nil {dst src : Encoding} (h : GoodDec src.dec) : conv dst src [] = [] :=
  conv_stop h h.nil

/-- A view that starts the text decodes as the text does, unless it may be cut short. -/
theorem dec_view {dec} (h : GoodDec dec) {v w : List Byte}
    (hh : (dec v).status ≠ .truncated ∨ 4 ≤ v.length ∨ w = []) : dec (v ++ w) = dec v := by
  rcases hh with h1 | h1 | h1
  · exact h.stable v w h1
  · exact h.four v w h1
  · simp [h1]

/-! ## One call -/

/-- What holds of the state of a call: everything written (`pre` by earlier calls), what is pending
for the output, and the conversion of what is pending at the input and still to come make up `W`. -/
structure Inv (dst src : Encoding) (W pre tail : List Byte) (r : R) : Prop where
  all : pre ++ r.out ++ r.dstSmall ++ conv dst src (r.srcSmall ++ r.src ++ tail) = W
  small : r.srcSmall.length ≤ 3
  dsmall : r.dstSmall.length ≤ 4

theorem flushDst_inv {dst src : Encoding} {W pre tail r} (h : Inv dst src W pre tail r) :
    Inv dst src W pre tail (flushDst r) := by
  refine ⟨?_, h.small, ?_⟩
  · rw [← h.all]
    simp only [flushDst, List.append_assoc]
    rw [← List.append_assoc (List.take _ _), List.take_append_drop]
  · have := h.dsmall
    simp only [flushDst, List.length_drop]; omega

theorem flushDst_facts (r : R) : (flushDst r).srcSmall = r.srcSmall ∧ (flushDst r).src = r.src ∧
    (flushDst r).cap + (flushDst r).out.length = r.cap + r.out.length ∧
    (0 < (flushDst r).cap → (flushDst r).dstSmall = []) ∧
    (r.out.length + min r.dstSmall.length r.cap = (flushDst r).out.length) := by
  refine ⟨rfl, rfl, ?_, ?_, ?_⟩
  · simp only [flushDst, List.length_append, List.length_take]; omega
  · intro hc
    simp only [flushDst] at hc ⊢
    exact List.drop_eq_nil_of_le (by omega)
  · simp only [flushDst, List.length_append, List.length_take]; omega

theorem putSmall_spec {dst : Encoding} (hd : GoodEnc dst.enc) (p : Nat) (r : R) :
    ∃ e, e.length ≤ 4 ∧ dst.enc 4 p = some e ∧ 0 < e.length ∧
      putSmall dst p r = some (flushDst { r with dstSmall := e }) := by
  obtain ⟨e, h0, h4, he⟩ := hd p
  refine ⟨e, h4, he 4 (by omega), h0, ?_⟩
  simp only [putSmall, he 4 (by omega)]
  rw [if_neg (by omega)]

/-- The text still to be converted in state `r`. -/
def R.text (r : R) (tail : List Byte) : List Byte := r.srcSmall ++ r.src ++ tail

theorem consume_small {dst src : Encoding} (hs : GoodDec src.dec) (hd : GoodEnc dst.enc)
    {W pre tail : List Byte} {r : R} (hi : Inv dst src W pre tail r) (hc : 0 < r.cap)
    (hds : r.dstSmall = []) (hsm : r.srcSmall ≠ []) {k : Nat} {d : DecodeResult}
    (hd1 : src.dec (r.srcSmall ++ r.src.take k) = d) (hd2 : src.dec (r.text tail) = d)
    (hp : 0 ≤ d.point) :
    ∃ r1 r2, putSmall dst d.point.toNat r = some r1 ∧ advance d.numBytes r1 = some r2 ∧
      Inv dst src W pre tail r2 ∧ r2.cap + r2.out.length = r.cap + r.out.length ∧
      r.out.length < r2.out.length ∧ (0 < r2.cap → r2.dstSmall = []) ∧
      r2.srcSmall.length < r.srcSmall.length ∧ (r2.srcSmall = [] ∨ r2.src = r.src) ∧
      r2.text tail = (r.text tail).drop d.numBytes := by
  obtain ⟨e, he4, hee, he0, hput⟩ := putSmall_spec hd d.point.toNat r
  have hsz := hs.size _ (hd1 ▸ hp)
  rw [hd1] at hsz
  have hst := conv_step (dst := dst) hs (T := r.text tail) (by rw [hd2]; exact hp)
  rw [hd2, hee] at hst
  simp only [Option.getD_some] at hst
  have hpos : 0 < r.srcSmall.length := List.length_pos_iff.mpr hsm
  have hkl : (r.src.take k).length ≤ r.src.length := by simp; omega
  simp only [List.length_append] at hsz
  rw [hput]
  obtain ⟨f1, f2, f3, f4, f5⟩ := flushDst_facts { r with dstSmall := e }
  generalize hr1 : flushDst { r with dstSmall := e } = r1 at *
  dsimp only at f1 f2 f3 f4 f5
  have hall : pre ++ r1.out ++ r1.dstSmall ++
      conv dst src ((r.text tail).drop d.numBytes) = W := by
    have := hi.all
    rw [hds] at this
    simp only [R.text] at hst
    rw [hst] at this
    rw [← hr1, ← this]
    simp only [flushDst, List.append_assoc, List.append_nil, R.text]
    rw [← List.append_assoc (List.take _ _), List.take_append_drop]
  have hds4 : r1.dstSmall.length ≤ 4 := by
    rw [← hr1]; simp only [flushDst, List.length_drop]; omega
  by_cases hlt : d.numBytes < r.srcSmall.length
  · have htxt : r.srcSmall.drop d.numBytes ++ r.src ++ tail = (r.text tail).drop d.numBytes := by
      simp only [R.text]
      rw [List.drop_append_of_le_length (by simp; omega),
        List.drop_append_of_le_length (by omega)]
    refine ⟨r1, { r1 with srcSmall := r1.srcSmall.drop d.numBytes }, rfl, ?_, ⟨?_, ?_, hds4⟩, f3, ?_, f4, ?_,
      .inr f2, ?_⟩
    · unfold advance; rw [f1, if_pos hlt]
    · dsimp only; rw [f1, f2, htxt]; exact hall
    · have := hi.small
      dsimp only; rw [f1, List.length_drop]; omega
    · dsimp only; omega
    · dsimp only; rw [f1, List.length_drop]; omega
    · simp only [R.text] at htxt ⊢; rw [f1, f2, htxt]
  · have htxt : [] ++ r.src.drop (d.numBytes - r.srcSmall.length) ++ tail =
        (r.text tail).drop d.numBytes := by
      simp only [R.text, List.nil_append]
      rw [List.append_assoc, List.drop_append, List.drop_eq_nil_of_le (as := r.srcSmall) (by omega),
        List.nil_append, List.drop_append_of_le_length (by omega)]
    refine ⟨r1, { r1 with srcSmall := [], src := r1.src.drop (d.numBytes - r1.srcSmall.length) }, rfl, ?_,
      ⟨?_, by simp, hds4⟩, f3, ?_, f4, ?_, .inl rfl, ?_⟩
    · unfold advance
      rw [if_neg (by rw [f1]; exact hlt), if_pos (by rw [f1, f2]; omega)]
    · dsimp only; rw [f1, f2, htxt]; exact hall
    · dsimp only; omega
    · exact hpos
    · simp only [R.text] at htxt ⊢; rw [f1, f2]; exact htxt

/-- What one run of the loop over the small source buffer achieves. -/
structure SmallPost (dst src : Encoding) (W pre tail : List Byte) (flush : Bool) (r r' : R)
    (b : Bool) : Prop where
  inv : Inv dst src W pre tail r'
  room : r'.cap + r'.out.length = r.cap + r.out.length
  ns : Later src.dec (r.text tail) (r'.text tail)
  grow : r.out.length ≤ r'.out.length
  dsm : 0 < r'.cap → r'.dstSmall = []
  cont : b = false → r'.srcSmall = [] ∧ 0 < r'.cap
  fin : b = true → 0 < r'.cap → flush = true → conv dst src (r'.text tail) = []
  keep : r'.srcSmall = [] ∨ r'.src = r.src
  short : b = true → 0 < r'.cap → flush = false → NS src.dec (r.text tail) →
    r'.srcSmall ≠ [] ∧ r'.srcSmall.length + r'.src.length < 4 ∧ r'.src = r.src
  same : r'.out.length = r.out.length → r'.text tail = r.text tail

theorem smallLoop_spec {dst src : Encoding} (hs : GoodDec src.dec) (hd : GoodEnc dst.enc)
    {W pre tail : List Byte} {flush : Bool} (hflush : flush = true → tail = []) :
    ∀ (fuel : Nat) (r : R), Inv dst src W pre tail r → 0 < r.cap → r.dstSmall = [] →
      r.srcSmall.length ≤ fuel →
      ∃ r' b, smallLoop dst src flush fuel r = some (r', b) ∧
        SmallPost dst src W pre tail flush r r' b := by
  intro fuel
  induction fuel with
  | zero =>
    intro r hi hc hds hl
    have : r.srcSmall = [] := List.length_eq_zero_iff.mp (by omega)
    refine ⟨r, false, by unfold smallLoop; simp [this], ⟨hi, rfl, .refl, Nat.le_refl _, fun _ => hds,
      fun _ => ⟨this, hc⟩, by simp, .inl this, by simp, fun _ => rfl⟩⟩
  | succ fuel ih =>
    intro r hi hc hds hl
    by_cases hsm : r.srcSmall = []
    · refine ⟨r, false, by unfold smallLoop; simp [hsm], ⟨hi, rfl, .refl, Nat.le_refl _, fun _ => hds,
        fun _ => ⟨hsm, hc⟩, by simp, .inl hsm, by simp, fun _ => rfl⟩⟩
    have h3 := hi.small
    generalize hk : min (4 - r.srcSmall.length) r.src.length = k
    have hT : r.text tail = (r.srcSmall ++ r.src.take k) ++ (r.src.drop k ++ tail) := by
      simp only [R.text, List.append_assoc]
      rw [← List.append_assoc (List.take _ _), List.take_append_drop]
    have hvl : (r.srcSmall ++ r.src.take k).length = r.srcSmall.length + k := by
      simp only [List.length_append, List.length_take]; omega
    unfold smallLoop
    rw [if_neg hsm]
    dsimp only
    rw [hk, if_neg (by simp [hds]), if_neg (by omega)]
    generalize hv : r.srcSmall ++ r.src.take k = v at *
    have hno : 4 ≤ v.length → ¬ (src.dec v).point < 0 := by
      intro h4 hp
      have := hs.fourPoint v h4
      omega
    have go : src.dec (r.text tail) = src.dec v → 0 ≤ (src.dec v).point →
        ∃ r' b, (if ¬ (0 ≤ (src.dec v).point ∧ 0 < (src.dec v).numBytes) then none else
          match putSmall dst (src.dec v).point.toNat r with
          | none => none
          | some r1 =>
            match advance (src.dec v).numBytes r1 with
            | none => none
            | some r2 => if r2.cap = 0 then some (r2, true) else smallLoop dst src flush fuel r2) =
              some (r', b) ∧ SmallPost dst src W pre tail flush r r' b := by
      intro hd2 hp
      rw [if_neg (fun h => h ⟨hp, (hs.size v hp).1⟩)]
      obtain ⟨r1, r2, e1, e2, i2, c2, o2, d2, s2, k2, t2⟩ :=
        consume_small hs hd hi hc hds hsm (by rw [hv]) hd2 hp
      rw [e1]; dsimp only; rw [e2]; dsimp only
      have hns : Later src.dec (r.text tail) (r2.text tail) := by
        rw [t2, ← hd2]
        exact .step (by rw [hd2]; exact hp)
      by_cases hc0 : r2.cap = 0
      · rw [if_pos hc0]
        refine ⟨r2, true, rfl, i2, c2, hns, by omega, d2, by simp, ?_, k2, ?_, fun h => by omega⟩
        · intro _ h; omega
        · intro _ h; omega
      · rw [if_neg hc0]
        obtain ⟨r', b, e, p⟩ := ih r2 i2 (by omega) (d2 (by omega)) (by omega)
        have hkeep : r'.srcSmall ≠ [] → r'.src = r.src := by
          intro hne
          rcases p.keep with h | h
          · exact absurd h hne
          · rcases k2 with h2 | h2
            · exfalso
              rw [smallLoop.eq_def] at e
              simp only [h2, if_true, Option.some.injEq, Prod.mk.injEq] at e
              rw [← e.1] at hne
              exact hne h2
            · rw [h, h2]
        refine ⟨r', b, e, p.inv, by have := p.room; omega, hns.trans p.ns,
          by have := p.grow; omega, p.dsm, p.cont, p.fin, ?_, ?_,
          fun h => by have := p.grow; omega⟩
        · by_cases h : r'.srcSmall = []
          · exact .inl h
          · exact .inr (hkeep h)
        · intro h1 h2 h3 h4
          obtain ⟨a, b, c⟩ := p.short h1 h2 h3 (hns.noStray hs h4)
          exact ⟨a, b, hkeep a⟩
    by_cases htr : (src.dec v).status = .truncated
    · rw [if_neg (by simp [htr]; omega)]
      have hpn : 0 ≤ (src.dec v).point ↔ 0 < (src.dec v).numBytes := by
        constructor
        · intro h; exact (hs.size v h).1
        · intro h
          refine Classical.byContradiction fun hc => ?_
          have := hs.nopoint v (by omega)
          omega
      rw [if_neg (fun h => h.2 hpn)]
      by_cases hfp : flush = true ∧ 0 ≤ (src.dec v).point
      · -- flushing: consume
        rw [if_neg (fun h => h.2 hfp)]
        have hd2 : src.dec (r.text tail) = src.dec v := by
          rw [hT]
          apply dec_view hs
          have ht := hflush hfp.1
          by_cases h4 : 4 ≤ v.length
          · exact .inr (.inl h4)
          · refine .inr (.inr ?_)
            rw [ht, List.append_nil]
            exact List.drop_eq_nil_of_le (by omega)
        exact go hd2 hfp.2
      · rw [if_pos ⟨htr, hfp⟩]
        refine ⟨r, true, rfl, hi, rfl, .refl, Nat.le_refl _, fun _ => hds, by simp, ?_, .inr rfl, ?_,
          fun _ => rfl⟩
        · intro _ _ hf
          have ht := hflush hf
          have hp : (src.dec v).point < 0 := by
            refine Classical.byContradiction fun h => hfp ⟨hf, by omega⟩
          have hnil : r.src.drop k ++ tail = [] ∨ 4 ≤ v.length := by
            by_cases h4 : 4 ≤ v.length
            · exact .inr h4
            · refine .inl ?_
              rw [ht, List.append_nil]
              exact List.drop_eq_nil_of_le (by omega)
          have hd2 : src.dec (r.text tail) = src.dec v := by
            rw [hT]
            apply dec_view hs
            rcases hnil with h | h
            · exact .inr (.inr h)
            · exact .inr (.inl h)
          exact conv_stop hs (by rw [hd2]; exact hp)
        · intro _ _ hf hns
          refine ⟨hsm, ?_, rfl⟩
          refine Classical.byContradiction fun h4 => ?_
          have hv4 : 4 ≤ v.length := by omega
          have hd2 : src.dec (r.text tail) = src.dec v := by
            rw [hT]; exact dec_view hs (.inr (.inl hv4))
          by_cases hp : 0 ≤ (src.dec v).point
          · have := ((NS_step hs (by rw [hd2]; exact hp)).mp hns).1
              (by rw [hT, List.length_append]; omega)
            rw [hd2] at this
            exact this htr
          · exact hno hv4 (by omega)
    · rw [if_neg (by simp [htr]), if_neg (by simp [htr]), if_neg (by simp [htr])]
      have hd2 : src.dec (r.text tail) = src.dec v := by
        rw [hT]; exact dec_view hs (.inl htr)
      have hp : 0 ≤ (src.dec v).point := by
        refine Classical.byContradiction fun h => ?_
        exact htr (hs.nopoint v (by omega)).2
      exact go hd2 hp

/-- What one run of the main loop achieves. -/
structure MainPost (dst src : Encoding) (W pre tail : List Byte) (flush : Bool) (r r' : R) :
    Prop where
  inv : Inv dst src W pre tail r'
  room : r'.cap + r'.out.length = r.cap + r.out.length
  ns : Later src.dec (r.text tail) (r'.text tail)
  grow : r.out.length ≤ r'.out.length
  dsm : 0 < r'.cap → r'.dstSmall = []
  fin : 0 < r'.cap → flush = true → conv dst src (r'.text tail) = []
  used : 0 < r'.cap → flush = false → r'.src = []
  sm : r'.srcSmall = [] ∨ r'.src = []
  same : 0 < r.cap → r'.out.length = r.out.length → r'.text tail = r.text tail

theorem put_spec {dst src : Encoding} (hs : GoodDec src.dec) (hd : GoodEnc dst.enc)
    {W pre tail : List Byte} {r : R} (hi : Inv dst src W pre tail r)
    (hds : r.dstSmall = []) (hsm : r.srcSmall = []) {d : DecodeResult}
    (hd1 : src.dec r.src = d) (hd2 : src.dec (r.text tail) = d) (hp : 0 ≤ d.point) :
    ∃ r1, put dst d.point.toNat { r with src := r.src.drop d.numBytes } = some r1 ∧
      Inv dst src W pre tail r1 ∧ r1.cap + r1.out.length = r.cap + r.out.length ∧
      r.out.length ≤ r1.out.length ∧ (0 < r1.cap → r1.dstSmall = []) ∧ (4 ≤ r.cap → r1.dstSmall = []) ∧
      r1.srcSmall = [] ∧ r1.src.length < r.src.length ∧
      r1.text tail = (r.text tail).drop d.numBytes ∧
      (0 < r.cap → r.out.length < r1.out.length) := by
  obtain ⟨e, he0, he4, hee⟩ := hd d.point.toNat
  have hsz := hs.size _ (hd1 ▸ hp)
  rw [hd1] at hsz
  have hst := conv_step (dst := dst) hs (T := r.text tail) (by rw [hd2]; exact hp)
  rw [hd2, hee 4 (by omega)] at hst
  simp only [Option.getD_some] at hst
  have htxt : r.srcSmall ++ r.src.drop d.numBytes ++ tail = (r.text tail).drop d.numBytes := by
    simp only [R.text, hsm, List.nil_append]
    rw [List.drop_append_of_le_length (by omega)]
  have hall := hi.all
  rw [hds] at hall
  simp only [R.text] at hst
  rw [hst] at hall
  have hlen : (r.src.drop d.numBytes).length < r.src.length := by rw [List.length_drop]; omega
  unfold put
  by_cases h4 : 4 ≤ r.cap
  · dsimp only
    rw [if_pos h4, hee _ h4]
    dsimp only
    rw [if_neg (by omega)]
    refine ⟨_, rfl, ⟨?_, hi.small, hi.dsmall⟩, ?_, ?_, fun _ => hds, fun _ => hds, hsm, hlen, htxt, ?_⟩
    · dsimp only
      rw [hds, htxt, ← hall]
      simp [R.text]
    · dsimp only; rw [List.length_append]; omega
    · dsimp only; rw [List.length_append]; omega
    · dsimp only; rw [List.length_append]; omega
  · dsimp only
    rw [if_neg h4]
    simp only [putSmall, hee 4 (by omega)]
    rw [if_neg (by omega)]
    obtain ⟨f1, f2, f3, f4, f5⟩ :=
      flushDst_facts { r with src := r.src.drop d.numBytes, dstSmall := e }
    refine ⟨_, rfl, ?_, f3, ?_, f4, fun h => absurd h h4, ?_, ?_, ?_, ?_⟩
    · apply flushDst_inv
      refine ⟨?_, hi.small, he4⟩
      dsimp only
      rw [htxt, ← hall]
      simp [R.text]
    · dsimp only at f5; omega
    · exact f1.trans hsm
    · rw [f2]; exact hlen
    · simp only [R.text] at htxt ⊢; rw [f1, f2]; exact htxt
    · intro h0; dsimp only at f5; omega

theorem mainLoop_spec {dst src : Encoding} (hs : GoodDec src.dec) (hd : GoodEnc dst.enc)
    {W pre tail : List Byte} {flush : Bool} (hflush : flush = true → tail = []) :
    ∀ (fuel : Nat) (r : R), Inv dst src W pre tail r → r.dstSmall = [] → r.srcSmall = [] →
      r.src.length ≤ fuel → (flush = false → NS src.dec (r.text tail)) →
      ∃ r', mainLoop dst src flush fuel r = some r' ∧
        MainPost dst src W pre tail flush r r' := by
  intro fuel
  induction fuel with
  | zero =>
    intro r hi hds hsm hl hns
    have hnil : r.src = [] := List.length_eq_zero_iff.mp (by omega)
    refine ⟨r, by unfold mainLoop; simp [hnil], hi, rfl, .refl, Nat.le_refl _, fun _ => hds, ?_,
      fun _ _ => hnil, .inl hsm, fun _ _ => rfl⟩
    intro _ hf
    simp [R.text, hsm, hnil, hflush hf, conv_nil hs]
  | succ fuel ih =>
    intro r hi hds hsm hl hns
    by_cases hnil : r.src = []
    · refine ⟨r, by unfold mainLoop; simp [hnil], hi, rfl, .refl, Nat.le_refl _, fun _ => hds, ?_,
        fun _ _ => hnil, .inl hsm, fun _ _ => rfl⟩
      intro _ hf
      simp [R.text, hsm, hnil, hflush hf, conv_nil hs]
    have hT : r.text tail = r.src ++ tail := by simp [R.text, hsm]
    unfold mainLoop
    rw [if_neg hnil]
    dsimp only
    have go : src.dec (r.text tail) = src.dec r.src → 0 ≤ (src.dec r.src).point →
        ∃ r', (if ¬ (0 ≤ (src.dec r.src).point) ∨ r.src.length < (src.dec r.src).numBytes then none
          else
            match put dst (src.dec r.src).point.toNat
              { r with src := r.src.drop (src.dec r.src).numBytes } with
            | none => none
            | some r1 =>
              if decide (4 ≤ r.cap) = false ∧ r1.cap = 0 then some r1
              else mainLoop dst src flush fuel r1) = some r' ∧
          MainPost dst src W pre tail flush r r' := by
      intro hd2 hp
      have hsz := hs.size _ hp
      rw [if_neg (by omega)]
      obtain ⟨r1, e1, i1, c1, o1, d1, d1', s1, l1, t1, o1'⟩ := put_spec hs hd hi hds hsm rfl hd2 hp
      rw [e1]; dsimp only
      have hns1 : Later src.dec (r.text tail) (r1.text tail) := by
        rw [t1, ← hd2]
        exact .step (by rw [hd2]; exact hp)
      by_cases hst : decide (4 ≤ r.cap) = false ∧ r1.cap = 0
      · rw [if_pos hst]
        exact ⟨r1, rfl, i1, c1, hns1, o1, d1, fun h => by omega, fun h => by omega, .inl s1,
          fun h0 h => by have := o1' h0; omega⟩
      · rw [if_neg hst]
        have hd1 : r1.dstSmall = [] := by
          by_cases h4 : 4 ≤ r.cap
          · exact d1' h4
          · apply d1
            simp only [decide_eq_false_iff_not] at hst
            omega
        obtain ⟨r', e', p⟩ := ih r1 i1 hd1 s1 (by omega) (fun h => hns1.noStray hs (hns h))
        refine ⟨r', e', p.inv, by have := p.room; omega, hns1.trans p.ns,
          by have := p.grow; omega, p.dsm, p.fin, p.used, p.sm,
          fun h0 h => by have := o1' h0; have := p.grow; omega⟩
    by_cases htr : (src.dec r.src).status = .truncated
    · by_cases hf : flush = false
      · rw [if_pos ⟨htr, hf⟩]
        have h4 : r.src.length < 4 := by
          refine Classical.byContradiction fun h4 => ?_
          have hd2 : src.dec (r.text tail) = src.dec r.src := by
            rw [hT]; exact dec_view hs (.inr (.inl (by omega)))
          have hp := hs.fourPoint r.src (by omega)
          have := ((NS_step hs (by rw [hd2]; exact hp)).mp (hns hf)).1
            (by rw [hT, List.length_append]; omega)
          rw [hd2] at this
          exact this htr
        rw [if_pos h4]
        refine ⟨_, rfl, ⟨?_, ?_, hi.dsmall⟩, rfl, ?_, Nat.le_refl _, fun _ => hds, ?_,
          fun _ _ => rfl, .inr rfl, fun _ _ => by simp [R.text, hsm]⟩
        · rw [← hi.all]; simp [hsm]
        · dsimp only; omega
        · simp only [R.text, hsm, List.nil_append, List.append_nil]; exact .refl
        · intro _ h; rw [hf] at h; cases h
      · have hft : flush = true := by simpa using hf
        have ht := hflush hft
        have hd2 : src.dec (r.text tail) = src.dec r.src := by rw [hT, ht, List.append_nil]
        rw [if_neg (fun h => hf h.2)]
        have hpn : 0 ≤ (src.dec r.src).point ↔ 0 < (src.dec r.src).numBytes := by
          constructor
          · intro h; exact (hs.size _ h).1
          · intro h
            refine Classical.byContradiction fun hc => ?_
            have := hs.nopoint r.src (by omega)
            omega
        rw [if_neg (fun h => h.2 hpn)]
        by_cases hp : (src.dec r.src).point < 0
        · rw [if_pos ⟨htr, hp⟩]
          refine ⟨r, rfl, hi, rfl, .refl, Nat.le_refl _, fun _ => hds, ?_, fun _ h => absurd h hf,
            .inl hsm, fun _ _ => rfl⟩
          intro _ _
          exact conv_stop hs (by rw [hd2]; exact hp)
        · rw [if_neg (fun h => hp h.2)]
          exact go hd2 (by omega)
    · rw [if_neg (fun h => htr h.1), if_neg (fun h => htr h.1), if_neg (fun h => htr h.1)]
      have hd2 : src.dec (r.text tail) = src.dec r.src := by
        rw [hT]; exact dec_view hs (.inl htr)
      have hp : 0 ≤ (src.dec r.src).point := by
        refine Classical.byContradiction fun h => ?_
        exact htr (hs.nopoint _ (by omega)).2
      exact go hd2 hp

/-- What one call of `convert` achieves, for a client whose text continues with `tail` after the
view. -/
structure CallPost (dst src : Encoding) (W pre tail : List Byte) (flush : Bool) (st : St) (cap : Nat)
    (view : List Byte) (r : R) : Prop where
  inv : Inv dst src W pre tail r
  room : r.cap + r.out.length = cap
  ns : Later src.dec (st.srcSmall ++ view ++ tail) (r.text tail)
  dsm : 0 < r.cap → r.dstSmall = []
  fin : 0 < r.cap → flush = true → conv dst src (r.text tail) = []
  used : 0 < r.cap → flush = false → r.src = [] ∨
    (r.srcSmall ≠ [] ∧ r.srcSmall.length + r.src.length < 4 ∧ r.src = view)
  sm : r.srcSmall = [] ∨ r.src = [] ∨ (r.src = view ∧ st.srcSmall ≠ [])
  same : r.out = [] → 0 < cap → r.text tail = st.srcSmall ++ view ++ tail

theorem convert_spec {dst src : Encoding} (hs : GoodDec src.dec) (hd : GoodEnc dst.enc)
    {W pre tail : List Byte} {flush : Bool} (hflush : flush = true → tail = []) (st : St) (cap : Nat)
    (view : List Byte) (hW : pre ++ st.dstSmall ++ conv dst src (st.srcSmall ++ view ++ tail) = W)
    (h3 : st.srcSmall.length ≤ 3) (h4 : st.dstSmall.length ≤ 4)
    (hns : flush = false → NS src.dec (st.srcSmall ++ view ++ tail)) :
    ∃ r, convert dst src st cap view flush = some r ∧
      CallPost dst src W pre tail flush st cap view r := by
  have hi : Inv dst src W pre tail ⟨st.srcSmall, st.dstSmall, cap, [], view⟩ :=
    ⟨by simpa using hW, h3, h4⟩
  have hor : st.srcSmall = [] ∨ st.srcSmall ≠ [] := Classical.em _
  unfold convert
  dsimp only
  by_cases hc : cap = 0
  · rw [if_pos hc]
    exact ⟨_, rfl, hi, by simp, .refl, fun h => by dsimp only at h; omega,
      fun h => by dsimp only at h; omega, fun h => by dsimp only at h; omega,
      hor.imp id fun h => .inr ⟨rfl, h⟩,
      fun _ h => by omega⟩
  rw [if_neg hc]
  have hi1 := flushDst_inv hi
  obtain ⟨f1, f2, f3, f4, f5⟩ := flushDst_facts ⟨st.srcSmall, st.dstSmall, cap, [], view⟩
  generalize flushDst ⟨st.srcSmall, st.dstSmall, cap, [], view⟩ = r1 at *
  dsimp only at f1 f2 f3 f4 f5
  simp only [List.length_nil, Nat.add_zero] at f3
  have htx : r1.text tail = st.srcSmall ++ view ++ tail := by rw [R.text, f1, f2]
  by_cases hfull : st.dstSmall ≠ [] ∧ r1.cap = 0
  · rw [if_pos hfull]
    refine ⟨r1, rfl, hi1, f3, by rw [htx]; exact .refl, f4, fun h => by omega,
      fun h => by omega, hor.imp (fun h => f1.trans h) fun h => .inr ⟨f2, h⟩, fun _ _ => htx⟩
  rw [if_neg hfull]
  have hc1 : 0 < r1.cap := by
    by_cases hd0 : st.dstSmall = []
    · have : r1.out.length = 0 := by rw [← f5, hd0]; simp
      omega
    · have : ¬ r1.cap = 0 := fun h => hfull ⟨hd0, h⟩
      omega
  unfold convertRest
  obtain ⟨r2, b, e2, p2⟩ := smallLoop_spec hs hd hflush r1.srcSmall.length r1 hi1 hc1 (f4 hc1)
    (Nat.le_refl _)
  rw [e2]
  cases b with
  | true =>
    dsimp only
    refine ⟨r2, rfl, p2.inv, by have := p2.room; omega, htx ▸ p2.ns,
      p2.dsm, p2.fin rfl, ?_, ?_, fun h _ => ?_⟩
    · intro h hf
      obtain ⟨a, b, c⟩ := p2.short rfl h hf (by rw [htx]; exact hns hf)
      exact .inr ⟨a, b, c.trans f2⟩
    · rcases p2.keep with h | h
      · exact .inl h
      · refine .inr (.inr ⟨h.trans f2, fun h0 => ?_⟩)
        rw [smallLoop.eq_def] at e2
        simp [f1, h0] at e2
    · have h0 : r2.out.length = 0 := by rw [h]; rfl
      rw [p2.same (by have := p2.grow; omega), htx]
  | false =>
    dsimp only
    obtain ⟨hsm, hc2⟩ := p2.cont rfl
    unfold convertMain
    rw [if_neg (by simp [hsm, p2.dsm hc2]; omega)]
    obtain ⟨r3, e3, p3⟩ := mainLoop_spec hs hd hflush r2.src.length r2 p2.inv (p2.dsm hc2) hsm
      (Nat.le_refl _) (fun h => p2.ns.noStray hs (by rw [htx]; exact hns h))
    rw [e3]
    refine ⟨r3, rfl, p3.inv, by have := p2.room; have := p3.room; omega,
      htx ▸ p2.ns.trans p3.ns, p3.dsm, p3.fin,
      fun h hf => .inl (p3.used h hf), ?_, fun h _ => ?_⟩
    · rcases p3.sm with h | h
      · exact .inl h
      · exact .inr (.inl h)
    · have h0 : r3.out.length = 0 := by rw [h]; rfl
      have g2 := p2.grow
      have g3 := p3.grow
      rw [p3.same hc2 (by omega), p2.same (by omega), htx]

/-! ## The four encodings -/

theorem good_bytes : GoodDec decodeBytes where
  size := by intro v; cases v <;> simp [decodeBytes, DecodeResult.none]
  nopoint := by intro v; cases v <;> simp [decodeBytes, DecodeResult.none] <;> omega
  stable := by intro v w; cases v <;> simp [decodeBytes, DecodeResult.none]
  four := by intro v w; cases v <;> simp [decodeBytes]
  fourPoint := by intro v; cases v <;> simp [decodeBytes]

theorem utf8_point (a : Byte) (t : List Byte) : 0 ≤ (decodeUTF8 (a :: t)).point := by
  rcases decode_cases a t with ⟨s, p, _, _, e⟩ | ⟨_, e⟩ | ⟨_, e⟩ <;> rw [e] <;> simp

theorem good_utf8 : GoodDec decodeUTF8 where
  size := by
    intro v
    cases v with
    | nil => simp [decodeUTF8, decodeUTF8Slow, DecodeResult.none]
    | cons a t =>
      intro _
      rcases decode_cases a t with ⟨s, p, h, hp, e⟩ | ⟨_, e⟩ | ⟨_, e⟩ <;> rw [e]
      · have := hp.length_le
        cases h <;> simp at this ⊢ <;> omega
      · simp
      · simp
  nopoint := by
    intro v
    cases v with
    | nil => simp [decodeUTF8, decodeUTF8Slow, DecodeResult.none]
    | cons a t => intro h; have := utf8_point a t; omega
  stable := by intro v w h; exact C02_stable v w h
  four := by
    intro v w h
    match v, h with
    | a :: b :: c :: d :: t, _ => simp [decodeUTF8, decodeUTF8Slow]
  fourPoint := by
    intro v h
    cases v with
    | nil => simp at h
    | cons a t => exact utf8_point a t

theorem good_utf16 (be : Bool) : GoodDec (decodeUTF16 be) where
  size := by
    intro v
    match v with
    | [] => simp [decodeUTF16, DecodeResult.none]
    | [_] => simp [decodeUTF16, DecodeResult.none]
    | [a, b] => intro _; simp only [decodeUTF16]; split <;> simp; split <;> simp
    | [a, b, c] => intro _; simp only [decodeUTF16]; split <;> simp; split <;> simp
    | a :: b :: c :: d :: t =>
      intro _; simp only [decodeUTF16]; split
      · split <;> simp
      · split <;> simp
  nopoint := by
    intro v
    match v with
    | [] => simp [decodeUTF16, DecodeResult.none]
    | [_] => simp [decodeUTF16, DecodeResult.none]
    | [a, b] => simp only [decodeUTF16]; split <;> simp <;> (try split) <;> simp <;> omega
    | [a, b, c] => simp only [decodeUTF16]; split <;> simp <;> (try split) <;> simp <;> omega
    | a :: b :: c :: d :: t =>
      simp only [decodeUTF16]; split
      · split
        · intro h; exact absurd h (Int.not_lt.mpr (Int.natCast_nonneg _))
        · intro h; exact absurd h (Int.not_lt.mpr (Int.natCast_nonneg _))
      · split
        · intro h; exact absurd h (Int.not_lt.mpr (Int.natCast_nonneg _))
        · intro h; exact absurd h (Int.not_lt.mpr (Int.natCast_nonneg _))
  stable := by
    intro v w
    match v with
    | [] => simp [decodeUTF16, DecodeResult.none]
    | [_] => simp [decodeUTF16, DecodeResult.none]
    | [a, b] => simp only [decodeUTF16, List.cons_append]; split <;> simp
    | [a, b, c] => simp only [decodeUTF16, List.cons_append]; split <;> simp
    | a :: b :: c :: d :: t => simp [decodeUTF16]
  four := by
    intro v w h
    match v, h with
    | a :: b :: c :: d :: t, _ => simp [decodeUTF16]
  fourPoint := by
    intro v h
    match v, h with
    | a :: b :: c :: d :: t, _ =>
      simp only [decodeUTF16]; split
      · split <;> exact Int.natCast_nonneg _
      · split <;> exact Int.natCast_nonneg _

theorem goodEnc_bytes : GoodEnc encodeBytes := by
  intro p
  refine ⟨[if p < 256 then UInt8.ofNat p else 0x95], by simp, by simp, ?_⟩
  intro cap h
  simp only [encodeBytes]; rw [if_pos (by omega)]

theorem goodEnc_utf8 : GoodEnc encodeUTF8 := by
  intro p
  have h4 : ∀ cap, 4 ≤ cap → encodeUTF8 cap p = encodeUTF8 4 p := by
    intro cap h
    simp only [encodeUTF8]
    split
    · rw [if_pos (by omega), if_pos (by omega)]
    split
    · rw [if_pos (by omega), if_pos (by omega)]
    split
    · rw [if_pos (by omega), if_pos (by omega)]
    · rw [if_pos (by omega)]
  have : ∃ e : List Byte, 0 < e.length ∧ e.length ≤ 4 ∧ encodeUTF8 4 p = some e := by
    simp only [encodeUTF8]
    split
    · exact ⟨_, by simp, by simp, rfl⟩
    split
    · exact ⟨_, by simp, by simp, rfl⟩
    split
    · exact ⟨_, by simp, by simp, rfl⟩
    · exact ⟨_, by simp, by simp, rfl⟩
  obtain ⟨e, a, b, c⟩ := this
  exact ⟨e, a, b, fun cap h => (h4 cap h).trans c⟩

theorem putUnit_length (be : Bool) (u : Nat) : (putUnit be u).length = 2 := by
  cases be <;> rfl

theorem goodEnc_utf16 (be : Bool) : GoodEnc (encodeUTF16 be) := by
  intro p
  by_cases h : p < 0x10000
  · refine ⟨putUnit be (p % 2 ^ 16), by rw [putUnit_length]; omega, by rw [putUnit_length]; omega, ?_⟩
    intro cap hc
    unfold encodeUTF16
    rw [if_pos h, if_pos (by omega)]
  · refine ⟨_, ?_, ?_, fun cap hc => by unfold encodeUTF16; rw [if_neg h, if_pos (by omega)]⟩ <;>
      simp [putUnit_length]

/-! ## Writing to a stream -/

theorem writeTo_flush {dst src : Encoding} (hs : GoodDec src.dec) (hd : GoodEnc dst.enc)
    {W : List Byte} :
    ∀ (room : List Nat) (pre : List Byte) (st : St) (view : List Byte),
      pre ++ st.dstSmall ++ conv dst src (st.srcSmall ++ view) = W →
      st.srcSmall.length ≤ 3 → st.dstSmall.length ≤ 4 → (∀ c ∈ room, 0 < c) →
      W.length < pre.length + room.length →
      ∃ st' out rest, writeTo dst src true room st view = some (st', out, rest) ∧
        pre ++ out = W := by
  intro room
  induction room with
  | nil =>
    intro pre st view hW _ _ _ hl
    rw [← hW] at hl
    simp at hl; omega
  | cons cap room ih =>
    intro pre st view hW h3 h4 hpos hl
    obtain ⟨r, e, p⟩ := convert_spec hs hd (W := W) (pre := pre) (tail := []) (flush := true)
      (fun _ => rfl) st cap view (by simpa using hW) h3 h4 (by simp)
    have hc : 0 < cap := hpos cap (by simp)
    unfold writeTo
    rw [e]
    dsimp only
    by_cases ho : r.out = []
    · rw [if_pos ho]
      refine ⟨_, _, _, rfl, ?_⟩
      have hr := p.room
      rw [ho] at hr
      simp only [List.length_nil, Nat.add_zero] at hr
      have hall := p.inv.all
      have hf := p.fin (by omega) rfl
      rw [R.text] at hf
      rw [ho, p.dsm (by omega), hf] at hall
      simpa using hall
    · rw [if_neg ho]
      have hall := p.inv.all
      rw [List.append_nil] at hall
      have hlo : 0 < r.out.length := List.length_pos_iff.mpr ho
      obtain ⟨st', out, rest, e', hw⟩ := ih (pre ++ r.out) ⟨r.srcSmall, r.dstSmall⟩ r.src hall
        p.inv.small p.inv.dsmall (fun c h => hpos c (by simp [h]))
        (by simp only [List.length_append, List.length_cons] at hl ⊢; omega)
      rw [e']
      exact ⟨st', r.out ++ out, rest, rfl, by simpa using hw⟩

theorem writeTo_pipe {dst src : Encoding} (hs : GoodDec src.dec) (hd : GoodEnc dst.enc)
    {W tail : List Byte} :
    ∀ (room : List Nat) (pre : List Byte) (st : St) (view : List Byte),
      pre ++ st.dstSmall ++ conv dst src (st.srcSmall ++ view ++ tail) = W →
      st.srcSmall.length ≤ 3 → st.dstSmall.length ≤ 4 → (∀ c ∈ room, 0 < c) →
      NS src.dec (st.srcSmall ++ view ++ tail) →
      (st.srcSmall = [] ∨ view = [] ∨ 3 ≤ view.length) →
      W.length < pre.length + room.length →
      ∃ st' out, writeTo dst src false room st view = some (st', out, []) ∧
        pre ++ out ++ conv dst src (st'.srcSmall ++ tail) = W ∧ st'.srcSmall.length ≤ 3 ∧
        st'.dstSmall = [] ∧ NS src.dec (st'.srcSmall ++ tail) := by
  intro room
  induction room with
  | nil =>
    intro pre st view hW _ _ _ _ _ hl
    rw [← hW] at hl
    simp at hl; omega
  | cons cap room ih =>
    intro pre st view hW h3 h4 hpos hns hsm hl
    obtain ⟨r, e, p⟩ := convert_spec hs hd (W := W) (pre := pre) (tail := tail) (flush := false)
      (by simp) st cap view hW h3 h4 (fun _ => hns)
    have hc : 0 < cap := hpos cap (by simp)
    unfold writeTo
    rw [e]
    dsimp only
    have hall := p.inv.all
    by_cases ho : r.out = []
    · rw [if_pos ho]
      have hr := p.room
      rw [ho] at hr
      simp only [List.length_nil, Nat.add_zero] at hr
      have hsrc : r.src = [] := by
        rcases p.used (by omega) rfl with h | ⟨h1, h2, h5⟩
        · exact h
        · have hp1 : 0 < r.srcSmall.length := List.length_pos_iff.mpr h1
          rcases hsm with h | h | h
          · have := p.same ho hc
            rw [R.text, h, h5, List.append_assoc, List.append_assoc] at this
            have := congrArg List.length this
            simp at this
            exact absurd this h1
          · rw [h5, h]
          · rw [h5] at h2; omega
      rw [hsrc]
      refine ⟨_, _, rfl, ?_, p.inv.small, p.dsm (by omega), ?_⟩
      · rw [ho, p.dsm (by omega), hsrc] at hall
        simpa using hall
      · have := p.ns.noStray hs hns
        rw [R.text, hsrc, List.append_nil] at this
        exact this
    · rw [if_neg ho]
      have hlo : 0 < r.out.length := List.length_pos_iff.mpr ho
      obtain ⟨st', out, e', hw, q1, q2, q3⟩ := ih (pre ++ r.out) ⟨r.srcSmall, r.dstSmall⟩ r.src hall
        p.inv.small p.inv.dsmall (fun c h => hpos c (by simp [h])) (p.ns.noStray hs hns)
        (by
          rcases p.sm with h | h | h
          · exact .inl h
          · exact .inr (.inl h)
          · rcases hsm with h' | h' | h'
            · exact absurd h' h.2
            · exact .inr (.inl (h.1.trans h'))
            · exact .inr (.inr (by rw [h.1]; exact h')))
        (by simp only [List.length_append, List.length_cons] at hl ⊢; omega)
      rw [e']
      exact ⟨st', r.out ++ out, rfl, by simpa using hw, q1, q2, q3⟩

end Verif.TConv

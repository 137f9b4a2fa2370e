import Verif.Crowbar.SpecInterp
import Verif.Num.Lemmas

/-! Operators, texts and the stack of objects of the Crowbar interpreter. -/

namespace Verif.Crowbar
open Verif

/-! ### Operators -/

/-- The operators of the model against those of the specification. -/
def OpSim : OpRes → VOp → Prop
  | _, .unspec => True
  | .outside, _ => True
  | .val v, .val w => v = w
  | .unsupported, .unsupported => True
  | .ub, .wrong => True
  | _, _ => False

theorem u32_ext {a : UInt32} {n : Nat} (h : a.toNat = n % 2 ^ 32) : a = UInt32.ofNat n := by
  rw [← UInt32.toNat_inj, h, UInt32.toNat_ofNat']

theorem u32_lt (a : UInt32) : a.toNat < 2 ^ 32 := UInt32.toNat_lt a

theorem binU32_sim (op : BinOp) (a b : UInt32) : OpSim (binU32 op a b) (vbin op (.u32 a) (.u32 b)) := by
  have ha := u32_lt a
  have hb := u32_lt b
  have hz : b = 0 ↔ b.toNat = 0 := by rw [← UInt32.toNat_inj]; rfl
  cases op <;> simp only [binU32, vbin, num, truth]
  · exact congrArg Val.u32 (u32_ext (UInt32.toNat_mul a b))
  · by_cases h : b = 0
    · rw [if_pos h, if_pos (hz.1 h)]; trivial
    · rw [if_neg h, if_neg (fun e => h (hz.2 e))]
      refine congrArg Val.u32 (u32_ext ?_)
      rw [UInt32.toNat_div, Nat.mod_eq_of_lt]
      exact Nat.lt_of_le_of_lt (Nat.div_le_self _ _) ha
  · by_cases h : b = 0
    · rw [if_pos h, if_pos (hz.1 h)]; trivial
    · rw [if_neg h, if_neg (fun e => h (hz.2 e))]
      refine congrArg Val.u32 (u32_ext ?_)
      rw [UInt32.toNat_mod]
      exact (Nat.mod_eq_of_lt (Nat.lt_of_le_of_lt (Nat.mod_le _ _) ha)).symm
  · exact congrArg Val.u32 (u32_ext (UInt32.toNat_add a b))
  · refine congrArg Val.u32 (u32_ext ?_)
    rw [UInt32.toNat_sub]; congr 1; omega
  · exact congrArg Val.bool (by rw [decide_eq_decide]; exact UInt32.lt_iff_toNat_lt)
  · exact congrArg Val.bool (by rw [decide_eq_decide]; exact UInt32.le_iff_toNat_le)
  · exact congrArg Val.bool (by rw [decide_eq_decide]; exact UInt32.lt_iff_toNat_lt)
  · exact congrArg Val.bool (by rw [decide_eq_decide]; exact UInt32.le_iff_toNat_le)
  · refine congrArg Val.bool ?_
    by_cases h : a = b
    · subst h; simp
    · have : ¬ a.toNat = b.toNat := fun e => h (UInt32.toNat_inj.1 e)
      simp [h, this]
  all_goals trivial

theorem repeatLoop_eq (x : List Byte) (k : Nat) : Str.repeatLoop x k = (List.replicate k x).flatten := by
  induction k with
  | zero => rfl
  | succ k ih => rw [List.replicate_succ, List.flatten_cons, ← ih]; rfl

theorem times_spec (x : List Byte) (k : Nat) :
    OpSim (strRes (Str.times x k)) (.val (.str (List.replicate k x).flatten)) := by
  unfold Str.times
  split
  · exact congrArg Val.str (repeatLoop_eq x k)
  · trivial

theorem concat_spec (x y : List Byte) : OpSim (strRes (Str.concat x y)) (.val (.str (x ++ y))) := by
  unfold Str.concat
  split
  · rfl
  · trivial

theorem binVal_sim (op : BinOp) (a b : Val) : OpSim (binVal op a b) (vbin op a b) := by
  cases a with
  | u32 x =>
    cases b with
    | u32 y =>
      have h := binU32_sim op x y
      cases op <;> exact h
    | _ => cases op <;> trivial
  | bool x =>
    cases b with
    | bool y =>
      cases op <;> first | trivial | (cases x <;> cases y <;> rfl)
    | _ => cases op <;> trivial
  | str x =>
    cases b with
    | u32 y =>
      cases op <;> first | trivial | skip
      exact times_spec x y.toNat
    | str y =>
      cases op <;> first | trivial | skip
      exact concat_spec x y
    | _ => cases op <;> trivial
  | func f => cases b <;> trivial
  | print => cases b <;> trivial

theorem unVal_sim (op : UnOp) (a : Val) : OpSim (unVal op a) (vun op a) := by
  cases a with
  | u32 x =>
    have hx := u32_lt x
    cases op
    · refine congrArg Val.u32 (u32_ext ?_)
      exact UInt32.toNat_neg x
    · by_cases h : x = 0
      · subst h; rfl
      · have h' : ¬ x.toNat = 0 := fun e => h (UInt32.toNat_inj.1 e)
        show Val.u32 _ = Val.u32 _
        rw [if_neg h, if_neg h']; rfl
    · refine congrArg Val.u32 (u32_ext ?_)
      rw [UInt32.toNat_not, Nat.mod_eq_of_lt]
      omega
  | bool x => cases op <;> first | trivial | rfl
  | str x => cases op <;> trivial
  | func f => cases op <;> trivial
  | print => cases op <;> trivial

/-! ### Texts -/

theorem printLoop_decimal : ∀ (k n : Nat) (acc : List Byte), n < 10 ^ k → 0 < n → n < 2 ^ 64 →
    Num.printLoop 10 false k n acc = some (digitsText n ++ acc) := by
  intro k
  induction k with
  | zero => intro n acc h h0 _; omega
  | succ k ih =>
    intro n acc h h0 h64
    rw [Num.printLoop, if_pos h0]
    dsimp only
    have hd : u32 (n - n / 10 * 10) = n % 10 := by
      unfold u32
      rw [Nat.mod_eq_of_lt] <;> omega
    have hdig : Num.toDigit (n % 10) false = UInt8.ofNat (48 + n % 10) := by
      unfold Num.toDigit
      rw [if_pos (by omega), if_pos (by omega)]
    rw [hd, hdig]
    by_cases h10 : n < 10
    · have e0 : n / 10 = 0 := by omega
      have e1 : n % 10 = n := by omega
      rw [e0, e1, digitsText, if_pos h10]
      cases k <;> rfl
    · have hk : n / 10 < 10 ^ k := by
        rw [Nat.pow_succ] at h
        omega
      rw [ih _ _ hk (by omega) (by omega)]
      conv => rhs; rw [digitsText, if_neg h10]
      simp

theorem printU64_decimal (n : Nat) (h : n < 2 ^ 64) : Num.printU64 n 10 false = some (digitsText n) := by
  unfold Num.printU64
  rw [if_pos (by omega)]
  by_cases h0 : n = 0
  · subst h0
    rw [if_pos rfl, digitsText, if_pos (by omega)]
    rfl
  · rw [if_neg h0, printLoop_decimal 64 n [] (by omega) (by omega) h, List.append_nil]

theorem valText_eq (v : Val) : valText v = v.text := by
  cases v with
  | u32 x => exact printU64_decimal x.toNat (Nat.lt_trans (u32_lt x) (by decide))
  | bool b => cases b <;> rfl
  | _ => rfl

/-! ### The stack of objects -/

/-- Distinct numbers, all used. -/
structure St.WF (s : St) : Prop where
  nodup : (s.objs.map Prod.fst).Nodup
  lt : ∀ o ∈ s.objs, o.1 < s.next

/-- `s'` has the objects of `s` and newer ones. -/
structure Ext (s s' : St) : Prop where
  wf : s'.WF
  pre : s.objs <+: s'.objs
  mono : s.next ≤ s'.next
  new : ∀ o ∈ s'.objs, o ∈ s.objs ∨ s.next ≤ o.1

theorem Ext.refl {s : St} (h : s.WF) : Ext s s := ⟨h, List.prefix_rfl, Nat.le_refl _, fun _ h => .inl h⟩

theorem Ext.trans {a b c : St} (h : Ext a b) (k : Ext b c) : Ext a c :=
  ⟨k.wf, h.pre.trans k.pre, Nat.le_trans h.mono k.mono, fun o ho =>
    match k.new o ho with
    | .inl h' => h.new o h'
    | .inr h' => .inr (Nat.le_trans h.mono h')⟩

theorem get_mem {s : St} {id : Nat} {v : Val} (h : s.get id = some v) : (id, v) ∈ s.objs := by
  unfold St.get at h
  cases hf : s.objs.find? (fun o => o.1 == id) with
  | none => rw [hf] at h; cases h
  | some o =>
    rw [hf] at h
    have h1 := List.find?_some hf
    have h2 := List.mem_of_find?_eq_some hf
    obtain ⟨i, w⟩ := o
    cases h
    have : i = id := by simpa using h1
    subst this
    exact h2

theorem find_of_nodup : ∀ {l : List (Nat × Val)} {id : Nat} {v : Val}, (l.map Prod.fst).Nodup →
    (id, v) ∈ l → l.find? (fun o => o.1 == id) = some (id, v) := by
  intro l
  induction l with
  | nil => intro id v _ h; cases h
  | cons o l ih =>
    intro id v hn h
    rw [List.map_cons, List.nodup_cons] at hn
    by_cases ho : o.1 = id
    · rw [List.find?_cons_of_pos (by simpa using ho)]
      rcases List.mem_cons.1 h with e | e
      · rw [e]
      · exact absurd (List.mem_map_of_mem (f := Prod.fst) e) (ho ▸ hn.1)
    · rw [List.find?_cons_of_neg (by simpa using ho)]
      rcases List.mem_cons.1 h with e | e
      · exact absurd (by rw [← e]) ho
      · exact ih hn.2 e

theorem get_of_mem {s : St} (hs : s.WF) {id : Nat} {v : Val} (h : (id, v) ∈ s.objs) : s.get id = some v := by
  unfold St.get
  rw [find_of_nodup hs.nodup h]
  rfl

theorem Ext.get {s s' : St} (h : Ext s s') {id : Nat} {v : Val} (hv : s.get id = some v) :
    s'.get id = some v := get_of_mem h.wf (h.pre.subset (get_mem hv))

/-- An object that existed once and is gone never comes back. -/
theorem Ext.get_back {s s' : St} (h : Ext s s') {id : Nat} {v : Val} (hid : id < s.next)
    (hs : s.WF) (hv : s'.get id = some v) : s.get id = some v := by
  rcases h.new _ (get_mem hv) with h1 | h1
  · exact get_of_mem hs h1
  · exact absurd h1 (by simpa using hid)

theorem cut_prefix {s s' : St} (h : s.objs <+: s'.objs) : (s'.cut s.objs.length).objs = s.objs := by
  obtain ⟨t, e⟩ := h
  show s'.objs.take _ = _
  rw [← e, List.take_left]

end Verif.Crowbar

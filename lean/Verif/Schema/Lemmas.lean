import Verif.Schema.Spec
/-!
# Schemas: lemmas
-/
namespace Verif.Schema
open Spec

/-! ## Numbers and names -/

theorem readLe_le : ∀ (k n : Nat) (rest : List Byte), n < 256 ^ k → readLe k (le k n ++ rest) = some (n, rest)
  | 0, n, rest, h => by
    have : n = 0 := by simpa using h
    subst this; rfl
  | k + 1, n, rest, h => by
    have h2 : n / 256 < 256 ^ k := by
      rw [Nat.pow_succ] at h
      exact Nat.div_lt_of_lt_mul (by rw [Nat.mul_comm]; exact h)
    show (match readLe k (le k (n / 256) ++ rest) with
      | none => none
      | some (n', rest) => some ((UInt8.ofNat (n % 256)).toNat + 256 * n', rest)) = _
    rw [readLe_le k _ rest h2]
    dsimp only
    rw [toNat_ofNat_byte (Nat.mod_lt _ (by decide)), Nat.mod_add_div]

theorem readBoxed_boxed (s rest : List Byte) (h : s.length < 2 ^ 32) :
    readBoxed (boxed s ++ rest) = some (s, rest) := by
  unfold readBoxed boxed
  rw [List.append_assoc, readLe_le 4 _ _ (by simpa using h)]
  dsimp only
  rw [if_neg (by simp)]
  simp

theorem readNames_boxed : ∀ (ss : List (List Byte)) (rest : List Byte), (∀ s ∈ ss, s.length < 2 ^ 32) →
    readNames ss.length (ss.flatMap boxed ++ rest) = some (ss, rest)
  | [], _, _ => rfl
  | s :: ss, rest, h => by
    rw [List.length_cons, readNames, List.flatMap_cons, List.append_assoc,
      readBoxed_boxed s _ (h s (by simp))]
    dsimp only
    rw [readNames_boxed ss rest (fun x hx => h x (by simp [hx]))]

/-! ## The writer's table -/

/-- The key of a registered type. -/
def reg : Kind → Option Nat
  | .prim k true => some k
  | _ => none

/-- The types written so far are `ts`. -/
structure Inv (types : T → Kind) (u ts : List T) (w : W) : Prop where
  nodup : ts.Nodup
  sub : ∀ c ∈ ts, c ∈ u
  user : ∀ c ∈ ts, reg (types c) = none
  next : w.next = 1000 + ts.length
  ids : ∀ c, w.ids c = match reg (types c) with
    | some k => some k
    | none => if c ∈ ts then some (1000 + ts.idxOf c) else none

theorem Inv.emit {types : T → Kind} {u ts : List T} {w : W} (h : Inv types u ts w) (bs : List Byte) :
    Inv types u ts (w.emit bs) := ⟨h.nodup, h.sub, h.user, h.next, h.ids⟩

theorem inv_start (types : T → Kind) (u : List T) : Inv types u [] (start types) := by
  refine ⟨List.nodup_nil, by simp, by simp, rfl, fun c => ?_⟩
  unfold start reg
  dsimp only
  cases types c with
  | prim k l => cases l <;> simp
  | _ => simp

theorem nodup_length_le : ∀ (ts u : List T), ts.Nodup → (∀ c ∈ ts, c ∈ u) → ts.length ≤ u.length
  | [], _, _, _ => Nat.zero_le _
  | t :: ts, u, hn, hs => by
    have ⟨h1, h2⟩ := List.nodup_cons.mp hn
    have := nodup_length_le ts (u.erase t) h2 (fun c hc => by
      refine (List.mem_erase_of_ne ?_).mpr (hs c (by simp [hc]))
      rintro rfl; exact h1 hc)
    rw [List.length_erase_of_mem (hs t (by simp))] at this
    have : 0 < u.length := List.length_pos_of_mem (hs t (by simp))
    simp only [List.length_cons]
    omega

/-- A further type gets the next id. -/
theorem Inv.add {types : T → Kind} {u ts : List T} {w : W} (h : Inv types u ts w) (hc : Closed types u)
    {t : T} (ht : t ∈ u) (hn : w.ids t = none) :
    Inv types u (ts ++ [t]) { w with
      ids := fun t' => if t' = t then some w.next else w.ids t'
      next := u32 (w.next + 1) } := by
  have hr : reg (types t) = none ∧ t ∉ ts := by
    rw [h.ids] at hn
    split at hn
    · cases hn
    · rename_i h'
      refine ⟨h', fun hm => ?_⟩
      rw [if_pos hm] at hn; cases hn
  have hnd : (ts ++ [t]).Nodup := by
    rw [List.nodup_append]
    refine ⟨h.nodup, by simp, ?_⟩
    rintro a ha b hb rfl
    rw [List.mem_singleton] at hb
    exact hr.2 (hb ▸ ha)
  have hsub : ∀ c ∈ ts ++ [t], c ∈ u := by
    intro c hcm
    rcases List.mem_append.mp hcm with hcm | hcm
    · exact h.sub c hcm
    · rw [List.mem_singleton] at hcm; exact hcm ▸ ht
  refine ⟨hnd, hsub, ?_, ?_, fun c => ?_⟩
  · intro c hcm
    rcases List.mem_append.mp hcm with hcm | hcm
    · exact h.user c hcm
    · rw [List.mem_singleton] at hcm; exact hcm ▸ hr.1
  · dsimp only
    have := nodup_length_le _ u hnd hsub
    rw [h.next, u32_of_lt] <;> rw [List.length_append] at * <;> have := hc.few <;>
      simp only [List.length_singleton] at * <;> omega
  · dsimp only
    by_cases e : c = t
    · subst e
      rw [if_pos rfl, hr.1]
      dsimp only
      rw [if_pos (by simp), h.next, List.idxOf_append, if_neg hr.2]
      simp
    · rw [if_neg e, h.ids]
      cases reg (types c) with
      | some k => rfl
      | none =>
        dsimp only
        by_cases hm : c ∈ ts
        · rw [if_pos hm, if_pos (by simp [hm]), List.idxOf_append, if_pos hm]
        · rw [if_neg hm, if_neg (by simp [hm, e])]

/-! ## The reader's slots -/

/-- Where the format of `c` is found when the formats of `ts` are stored and those of `op` unfinished. -/
def refOf (types : T → Kind) (op ts : List T) (c : T) : Ref :=
  match reg (types c) with
  | some k => .builtin k
  | none => if c ∈ op then .null else .user (ts.idxOf c)

/-- A type that has been met. -/
def Met (types : T → Kind) (ts : List T) (c : T) : Prop := (reg (types c)).isSome ∨ c ∈ ts

theorem refOf_append {types : T → Kind} {op ts : List T} (ts2 : List T) {c : T} (h : Met types ts c) :
    refOf types op (ts ++ ts2) c = refOf types op ts c := by
  unfold refOf
  cases hr : reg (types c) with
  | some k => rfl
  | none =>
    dsimp only
    rcases h with h | h
    · rw [hr] at h; cases h
    · rw [List.idxOf_append, if_pos h]

theorem Met.append {types : T → Kind} {ts : List T} (ts2 : List T) {c : T} (h : Met types ts c) :
    Met types (ts ++ ts2) c := h.imp id (fun h => by simp [h])

/-- A stored format is that of its type, with null for mentioned types from which the type is reached. -/
def Matches (types : T → Kind) (ts : List T) (t : T) (d : Desc) : Prop :=
  ∃ op : List T, (∀ o ∈ op, Reaches types o t) ∧ (∀ c ∈ parts (types t), Met types ts c) ∧
    format (refOf types op ts) (types t) = some d

theorem format_congr {f g : T → Ref} {k : Kind} (h : ∀ c ∈ parts k, f c = g c) : format f k = format g k := by
  cases k with
  | struct n ps ms =>
    have h1 : ps.map (fun p => (p.1, f p.2)) = ps.map (fun p => (p.1, g p.2)) :=
      List.map_congr_left fun p hp => by rw [h p.2 (by simp only [parts, List.mem_append, List.mem_map]; exact .inl ⟨p, hp, rfl⟩)]
    have h2 : ms.map (fun p => (p.1, f p.2)) = ms.map (fun p => (p.1, g p.2)) :=
      List.map_congr_left fun p hp => by rw [h p.2 (by simp only [parts, List.mem_append, List.mem_map]; exact .inr ⟨p, hp, rfl⟩)]
    simp only [format, h1, h2]
  | switch n ss =>
    have h1 : ss.map (fun p => (p.1, f p.2)) = ss.map (fun p => (p.1, g p.2)) :=
      List.map_congr_left fun p hp => by rw [h p.2 (by simp only [parts, List.mem_map]; exact ⟨p, hp, rfl⟩)]
    simp only [format, h1]
  | _ => simp_all [format, parts]

theorem Matches.append {types : T → Kind} {ts : List T} (ts2 : List T) {t : T} {d : Desc}
    (h : Matches types ts t d) : Matches types (ts ++ ts2) t d := by
  obtain ⟨op, h1, h2, h3⟩ := h
  refine ⟨op, h1, fun c hc => (h2 c hc).append ts2, ?_⟩
  rw [format_congr (g := refOf types op ts) (fun c hc => refOf_append ts2 (h2 c hc))]
  exact h3

/-- The slots of the types `ts`: empty for those of `op`. -/
structure Slots (types : T → Kind) (op ts : List T) (slots : List (Option Desc)) : Prop where
  len : slots.length = ts.length
  sub : ∀ o ∈ op, o ∈ ts
  slot : ∀ (i : Nat) (t : T), ts[i]? = some t → (t ∈ op ∧ slots[i]? = some none) ∨
    (t ∉ op ∧ ∃ d, slots[i]? = some (some d) ∧ Matches types ts t d)

/-- The key of the format of a type. -/
def keyOfKind : Kind → Nat
  | .prim k _ => k
  | .fixedArray .. => 16
  | .array .. => 17
  | .owned .. => 18
  | .rawPtr .. => 19
  | .struct .. => 20
  | .enum .. => 21
  | .enumArray .. => 22
  | .switch .. => 23
  | .other => 0

theorem format_key {f : T → Ref} {k : Kind} {d : Desc} (h : format f k = some d) : d.key = keyOfKind k := by
  cases k <;> simp only [format, Option.some.injEq, reduceCtorEq] at h <;> subst h <;> rfl

theorem getElem?_idxOf {ts : List T} {c : T} (h : c ∈ ts) : ts[ts.idxOf c]? = some c := by
  have hl : ts.idxOf c < ts.length := List.idxOf_lt_length_iff.mpr h
  rw [List.getElem?_eq_getElem hl, List.getElem_idxOf]

theorem keyOf_ref {types : T → Kind} {op ts : List T} {slots : List (Option Desc)} {inp : List Byte}
    (hs : Slots types op ts slots) {c : T} (hm : Met types ts c) (hc : reg (types c) = none) (ho : c ∉ op) :
    (R.mk slots inp).keyOf (refOf types op ts c) = some (keyOfKind (types c)) := by
  have hin : c ∈ ts := by
    rcases hm with h | h
    · rw [hc] at h; cases h
    · exact h
  unfold refOf
  rw [hc]
  dsimp only
  rw [if_neg ho]
  unfold R.keyOf
  dsimp only
  rcases hs.slot _ c (getElem?_idxOf hin) with ⟨h, -⟩ | ⟨-, d, h1, op', -, -, h2⟩
  · exact absurd h ho
  · rw [h1]
    dsimp only
    rw [format_key h2]

/-! ## What the writer writes, the reader reads -/

/-- `add` writes formats of types not met before that `readDesc` reads. -/
def AddOk (types : T → Kind) (u : List T) (add : T → W → Option W) : Prop :=
  ∀ (c : T) (w w' : W) (ts : List T), c ∈ u → w.ids c = none → Inv types u ts w → add c w = some w' →
    ∃ bs ts2, w'.out = w.out ++ bs ∧ Inv types u (ts ++ ts2) w' ∧ Met types (ts ++ ts2) c ∧
      ∀ op slots, Slots types op ts slots → (∀ o ∈ op, Reaches types o c) →
        ∃ slots2, Slots types op (ts ++ ts2) (slots ++ slots2) ∧
          ∀ rest, ∃ k, ∀ fuel, k ≤ fuel → ∀ top, readDesc fuel top ⟨slots, bs ++ rest⟩ =
            some (refOf types op (ts ++ ts2) c, ⟨slots ++ slots2, rest⟩)

/-- `child` writes formats of types mentioned by `p` that `readDesc` reads. -/
def ChildOk (types : T → Kind) (u : List T) (p : T) (child : T → W → Option W) : Prop :=
  ∀ (c : T) (w w' : W) (ts : List T), c ∈ parts (types p) → Inv types u ts w → child c w = some w' →
    ∃ bs ts2, w'.out = w.out ++ bs ∧ Inv types u (ts ++ ts2) w' ∧ Met types (ts ++ ts2) c ∧
      ∀ op slots, Slots types op ts slots → (∀ o ∈ op, Reaches types o p) →
        ∃ slots2, Slots types op (ts ++ ts2) (slots ++ slots2) ∧
          ∀ rest, ∃ k, ∀ fuel, k ≤ fuel → readDesc fuel false ⟨slots, bs ++ rest⟩ =
            some (refOf types op (ts ++ ts2) c, ⟨slots ++ slots2, rest⟩)

theorem le_one {n : Nat} (h : n < 256) (rest : List Byte) : readLe 1 (le 1 n ++ rest) = some (n, rest) :=
  readLe_le 1 n rest (by simpa using h)

theorem child_ok {types : T → Kind} {u : List T} (hc : Closed types u) {add : T → W → Option W}
    (ha : AddOk types u add) {p : T} (hp : p ∈ u) : ChildOk types u p (writeChild add) := by
  intro c w w' ts hcp hi hw
  have hcu := hc.parts p hp c hcp
  unfold writeChild at hw
  cases hid : w.ids c with
  | none =>
    rw [hid] at hw
    obtain ⟨bs, ts2, h1, h2, h3, h4⟩ := ha c w w' ts hcu hid hi hw
    refine ⟨bs, ts2, h1, h2, h3, fun op slots hs ho => ?_⟩
    obtain ⟨slots2, h5, h6⟩ := h4 op slots hs (fun o h => (ho o h).step hcp)
    exact ⟨slots2, h5, fun rest => (h6 rest).imp fun k h fuel hf => h fuel hf false⟩
  | some id =>
    rw [hid] at hw
    simp only [Option.some.injEq] at hw
    subst hw
    rw [hi.ids] at hid
    have hmet : Met types ts c := by
      cases hr : reg (types c) with
      | some k => exact .inl (by rw [hr]; rfl)
      | none =>
        rw [hr] at hid
        dsimp only at hid
        by_cases hm : c ∈ ts
        · exact .inr hm
        · rw [if_neg hm] at hid; cases hid
    refine ⟨le 1 1 ++ le 4 id, [], ?_, ?_, ?_, fun op slots hs ho => ⟨[], ?_, fun rest => ⟨1, fun fuel hf => ?_⟩⟩⟩
    · simp [W.emit]
    · rw [List.append_nil]; exact (hi.emit _).emit _
    · rw [List.append_nil]; exact hmet
    · rw [List.append_nil, List.append_nil]; exact hs
    · obtain ⟨fuel, rfl⟩ : ∃ f, fuel = f + 1 := ⟨fuel - 1, by omega⟩
      rw [List.append_nil, List.append_nil, List.append_assoc, readDesc]
      dsimp only
      rw [le_one (by decide)]
      dsimp only
      rw [if_neg (by decide), if_pos rfl]
      unfold refOf
      cases hr : reg (types c) with
      | some k =>
        rw [hr] at hid
        simp only [Option.some.injEq] at hid
        subst hid
        have hk : 2 ≤ k ∧ k < 16 := by
          have hfit := hc.fits c hcu
          unfold reg at hr
          split at hr
          · rename_i heq
            rw [heq] at hfit
            simp only [Option.some.injEq] at hr
            subst hr
            exact ⟨hfit.1, hfit.2.1⟩
          · cases hr
        rw [readLe_le 4 _ _ (by omega)]
        dsimp only
        rw [if_pos (by omega), if_pos hk]
      | none =>
        rw [hr] at hid
        dsimp only at hid
        have hm : c ∈ ts := by
          rcases hmet with h | h
          · rw [hr] at h; cases h
          · exact h
        rw [if_pos hm] at hid
        simp only [Option.some.injEq] at hid
        subst hid
        have hlt : ts.idxOf c < ts.length := List.idxOf_lt_length_iff.mpr hm
        have hle := nodup_length_le _ _ hi.nodup hi.sub
        have := hc.few
        rw [readLe_le 4 _ _ (by omega)]
        dsimp only
        rw [if_neg (by omega), Nat.add_sub_cancel_left]
        rcases hs.slot _ c (getElem?_idxOf hm) with ⟨h, h1⟩ | ⟨h, d, h1, -⟩
        · rw [h1, if_pos h]
        · rw [h1, if_neg h]

theorem pairs_ok {types : T → Kind} {u : List T} {p : T} {child : T → W → Option W}
    (hch : ChildOk types u p child) (want : Option Nat) :
    ∀ (ms : List (List Byte × T)) (w w' : W) (ts : List T),
      (∀ m ∈ ms, m.2 ∈ parts (types p) ∧ m.1.length < 2 ^ 32) →
      (∀ n, want = some n → ∀ m ∈ ms, keyOfKind (types m.2) = n ∧ reg (types m.2) = none ∧
        ¬Reaches types m.2 p) →
      Inv types u ts w → writePairs child ms w = some w' →
      ∃ bs ts2, w'.out = w.out ++ bs ∧ Inv types u (ts ++ ts2) w' ∧
        (∀ m ∈ ms, Met types (ts ++ ts2) m.2) ∧
        ∀ op slots, Slots types op ts slots → (∀ o ∈ op, Reaches types o p) →
          ∃ slots2, Slots types op (ts ++ ts2) (slots ++ slots2) ∧
            ∀ rest, ∃ k, ∀ fuel, k ≤ fuel →
              readPairs (readDesc fuel false) want ms.length ⟨slots, bs ++ rest⟩ =
                some (ms.map (fun m => (m.1, refOf types op (ts ++ ts2) m.2)), ⟨slots ++ slots2, rest⟩)
  | [], w, w', ts, _, _, hi, hw => by
    simp only [writePairs, Option.some.injEq] at hw
    subst hw
    exact ⟨[], [], by simp, by simpa using hi, by simp, fun op slots hs _ =>
      ⟨[], by simpa using hs, fun rest => ⟨0, fun fuel _ => by simp [readPairs]⟩⟩⟩
  | (n, t) :: ms, w, w', ts, hm, hwant, hi, hw => by
    rw [writePairs] at hw
    cases hw1 : child t (w.emit (boxed n)) with
    | none => rw [hw1] at hw; cases hw
    | some w1 =>
      rw [hw1] at hw
      dsimp only at hw
      obtain ⟨bs1, ts1, a1, a2, a3, a4⟩ := hch t _ w1 ts (hm (n, t) (by simp)).1 (hi.emit _) hw1
      obtain ⟨bs2, ts2, b1, b2, b3, b4⟩ := pairs_ok hch want ms w1 w' (ts ++ ts1)
        (fun m h => hm m (by simp [h])) (fun k hk m h => hwant k hk m (by simp [h])) a2 hw
      rw [List.append_assoc] at b2 b3 b4
      refine ⟨boxed n ++ bs1 ++ bs2, ts1 ++ ts2, ?_, b2, ?_, fun op slots hs ho => ?_⟩
      · rw [b1, a1]; simp [W.emit]
      · intro m hmm
        rcases List.mem_cons.mp hmm with rfl | hmm
        · rw [← List.append_assoc]; exact a3.append ts2
        · exact b3 m hmm
      · obtain ⟨s1, c1, c2⟩ := a4 op slots hs ho
        obtain ⟨s2, d1, d2⟩ := b4 op (slots ++ s1) c1 ho
        refine ⟨s1 ++ s2, by rw [← List.append_assoc slots]; exact d1, fun rest => ?_⟩
        obtain ⟨k1, c2⟩ := c2 (bs2 ++ rest)
        obtain ⟨k2, d2⟩ := d2 rest
        refine ⟨k1 + k2, fun fuel hf => ?_⟩
        rw [List.length_cons, readPairs, List.append_assoc, List.append_assoc]
        dsimp only
        rw [readBoxed_boxed n _ (hm (n, t) (by simp)).2]
        dsimp only
        rw [c2 fuel (by omega)]
        dsimp only
        rw [if_neg, d2 fuel (by omega)]
        · dsimp only
          rw [List.map_cons, ← List.append_assoc ts, refOf_append ts2 a3, List.append_assoc slots]
        · rintro ⟨g1, g2⟩
          cases want with
          | none => cases g1
          | some k =>
            obtain ⟨e1, e2, e3⟩ := hwant k rfl (n, t) (by simp)
            refine g2 ?_
            rw [keyOf_ref c1 a3 e2 (fun h => e3 (ho t h)), e1]

theorem Slots.grow {types : T → Kind} {op ts : List T} {slots : List (Option Desc)}
    (h : Slots types op ts slots) {t : T} (ht : t ∉ ts) : Slots types (t :: op) (ts ++ [t]) (slots ++ [none]) := by
  refine ⟨by simp [h.len], ?_, fun i t' hi => ?_⟩
  · intro o ho
    rcases List.mem_cons.mp ho with rfl | ho
    · simp
    · simp [h.sub o ho]
  · by_cases hl : i < ts.length
    · rw [List.getElem?_append_left hl] at hi
      rw [List.getElem?_append_left (by rw [h.len]; exact hl)]
      rcases h.slot i t' hi with ⟨g1, g2⟩ | ⟨g1, d, g2, g3⟩
      · exact .inl ⟨by simp [g1], g2⟩
      · refine .inr ⟨?_, d, g2, g3.append _⟩
        intro hm
        rcases List.mem_cons.mp hm with rfl | hm
        · exact ht (List.mem_of_getElem? hi)
        · exact g1 hm
    · have hi2 : i = ts.length := by
        have : i < (ts ++ [t]).length := by
          refine Classical.byContradiction fun hn => ?_
          rw [List.getElem?_eq_none (by omega)] at hi; cases hi
        simp at this; omega
      subst hi2
      simp only [List.getElem?_concat_length, Option.some.injEq] at hi
      subst hi
      refine .inl ⟨by simp, ?_⟩
      rw [← h.len]; simp

theorem Slots.fill {types : T → Kind} {op ts : List T} {slots : List (Option Desc)} {t : T} {i : Nat} {d : Desc}
    (h : Slots types (t :: op) ts slots) (hn : ts.Nodup) (hi : ts[i]? = some t) (ho : t ∉ op)
    (hd : Matches types ts t d) : Slots types op ts (slots.set i (some d)) := by
  refine ⟨by simp [h.len], fun o hoo => h.sub o (by simp [hoo]), fun j t' hj => ?_⟩
  by_cases e : j = i
  · subst e
    rw [hi] at hj
    cases hj
    have hl : j < slots.length := by
      rw [h.len]
      refine Classical.byContradiction fun hh => ?_
      rw [List.getElem?_eq_none (by omega)] at hi; cases hi
    exact .inr ⟨ho, d, by simp [hl], hd⟩
  · rw [List.getElem?_set_ne (Ne.symm e)]
    have hne : t' ≠ t := by
      rintro rfl
      have hlj : j < ts.length := by
        refine Classical.byContradiction fun hh => ?_
        rw [List.getElem?_eq_none (by omega)] at hj; cases hj
      exact e ((List.getElem?_inj hlj hn).mp (by rw [hj, hi]))
    rcases h.slot j t' hj with ⟨g1, g2⟩ | ⟨g1, g⟩
    · rcases List.mem_cons.mp g1 with rfl | g1
      · exact absurd rfl hne
      · exact .inl ⟨g1, g2⟩
    · exact .inr ⟨fun hm => g1 (by simp [hm]), g⟩

/-- What `writeFormat` writes after the key, `readBody` reads. -/
theorem format_ok {types : T → Kind} {u : List T} (hc : Closed types u) (hsw : SwitchesEnd types u) {p : T}
    (hp : p ∈ u) (hreg : reg (types p) = none) {child : T → W → Option W} (hch : ChildOk types u p child)
    (w w' : W) (ts : List T) (hi : Inv types u ts w) (hw : writeFormat child (types p) w = some w') :
    ∃ bs ts2, w'.out = w.out ++ (le 1 (keyOfKind (types p)) ++ bs) ∧ Inv types u (ts ++ ts2) w' ∧
      16 ≤ keyOfKind (types p) ∧ keyOfKind (types p) < 256 ∧
      (∀ c ∈ parts (types p), Met types (ts ++ ts2) c) ∧
      ∀ op slots, Slots types op ts slots → (∀ o ∈ op, Reaches types o p) →
        ∃ slots2 d, Slots types op (ts ++ ts2) (slots ++ slots2) ∧
          format (refOf types op (ts ++ ts2)) (types p) = some d ∧
          ∀ rest, ∃ k, ∀ fuel, k ≤ fuel →
            readBody (readDesc fuel false) (keyOfKind (types p)) ⟨slots, bs ++ rest⟩ =
              some (d, ⟨slots ++ slots2, rest⟩) := by
  have hfit := hc.fits p hp
  have hty := hc.typed p hp
  generalize hk : types p = kp at *
  cases kp with
  | prim k l =>
    cases hfit.2.2
    cases hreg
  | other => cases hfit
  | fixedArray n t =>
    obtain ⟨bs, ts2, h1, h2, h3, h4⟩ := hch t _ w' ts (by rw [hk]; simp [parts]) ((hi.emit _).emit _) hw
    refine ⟨le 4 n ++ bs, ts2, ?_, h2, by simp [keyOfKind], by simp [keyOfKind], by simpa [parts] using h3,
      fun op slots hs ho => ?_⟩
    · rw [h1]; simp [W.emit, keyOfKind]
    · obtain ⟨s2, c1, c2⟩ := h4 op slots hs ho
      refine ⟨s2, _, c1, rfl, fun rest => ?_⟩
      obtain ⟨k, c2⟩ := c2 rest
      refine ⟨k, fun fuel hf => ?_⟩
      dsimp only [keyOfKind]
      unfold readBody
      rw [if_pos rfl, List.append_assoc]
      dsimp only
      rw [readLe_le 4 _ _ (by simpa [Fits] using hfit)]
      dsimp only
      rw [c2 fuel hf]
  | array t =>
    obtain ⟨bs, ts2, h1, h2, h3, h4⟩ := hch t _ w' ts (by rw [hk]; simp [parts]) (hi.emit _) hw
    refine ⟨bs, ts2, ?_, h2, by simp [keyOfKind], by simp [keyOfKind], by simpa [parts] using h3, fun op slots hs ho => ?_⟩
    · rw [h1]; simp [W.emit, keyOfKind]
    · obtain ⟨s2, c1, c2⟩ := h4 op slots hs ho
      refine ⟨s2, _, c1, rfl, fun rest => ?_⟩
      obtain ⟨k, c2⟩ := c2 rest
      refine ⟨k, fun fuel hf => ?_⟩
      dsimp only [keyOfKind]
      unfold readBody
      rw [if_neg (by decide), if_pos rfl, c2 fuel hf]
  | owned t =>
    obtain ⟨bs, ts2, h1, h2, h3, h4⟩ := hch t _ w' ts (by rw [hk]; simp [parts]) (hi.emit _) hw
    refine ⟨bs, ts2, ?_, h2, by simp [keyOfKind], by simp [keyOfKind], by simpa [parts] using h3, fun op slots hs ho => ?_⟩
    · rw [h1]; simp [W.emit, keyOfKind]
    · obtain ⟨s2, c1, c2⟩ := h4 op slots hs ho
      refine ⟨s2, _, c1, rfl, fun rest => ?_⟩
      obtain ⟨k, c2⟩ := c2 rest
      refine ⟨k, fun fuel hf => ?_⟩
      dsimp only [keyOfKind]
      unfold readBody
      rw [if_neg (by decide), if_neg (by decide), if_pos rfl, c2 fuel hf]
  | rawPtr t =>
    obtain ⟨bs, ts2, h1, h2, h3, h4⟩ := hch t _ w' ts (by rw [hk]; simp [parts]) (hi.emit _) hw
    refine ⟨bs, ts2, ?_, h2, by simp [keyOfKind], by simp [keyOfKind], by simpa [parts] using h3, fun op slots hs ho => ?_⟩
    · rw [h1]; simp [W.emit, keyOfKind]
    · obtain ⟨s2, c1, c2⟩ := h4 op slots hs ho
      refine ⟨s2, _, c1, rfl, fun rest => ?_⟩
      obtain ⟨k, c2⟩ := c2 rest
      refine ⟨k, fun fuel hf => ?_⟩
      dsimp only [keyOfKind]
      unfold readBody
      rw [if_neg (by decide), if_neg (by decide), if_neg (by decide), if_pos rfl, c2 fuel hf]
  | enum name size ids =>
    simp only [writeFormat, Option.some.injEq] at hw
    subst hw
    obtain ⟨f1, f2, f3, f4⟩ := hfit
    refine ⟨boxed name ++ (le 1 size ++ (le 4 ids.length ++ ids.flatMap boxed)), [], ?_, ?_, by simp [keyOfKind], by simp [keyOfKind],
      by simp [parts], fun op slots hs ho => ⟨[], _, ?_, rfl, fun rest => ⟨0, fun fuel _ => ?_⟩⟩⟩
    · simp [W.emit, keyOfKind]
    · rw [List.append_nil]; exact ((((hi.emit _).emit _).emit _).emit _).emit _
    · rw [List.append_nil, List.append_nil]; exact hs
    · dsimp only [keyOfKind]
      unfold readBody
      rw [if_neg (by decide), if_neg (by decide), if_neg (by decide), if_neg (by decide), if_neg (by decide),
        if_pos rfl, List.append_nil]
      dsimp only
      rw [List.append_assoc, readBoxed_boxed _ _ f1]
      dsimp only
      rw [List.append_assoc, le_one (by simpa using f2)]
      dsimp only
      rw [List.append_assoc, readLe_le 4 _ _ (by simpa using f3)]
      dsimp only
      rw [readNames_boxed _ _ f4]
  | enumArray i e =>
    obtain ⟨en, es, eids, he⟩ := hty
    rw [writeFormat] at hw
    cases hw1 : child i (w.emit (le 1 22)) with
    | none => rw [hw1] at hw; cases hw
    | some w1 =>
      rw [hw1] at hw
      dsimp only at hw
      obtain ⟨bs1, ts1, a1, a2, a3, a4⟩ := hch i _ w1 ts (by rw [hk]; simp [parts]) (hi.emit _) hw1
      obtain ⟨bs2, ts2, b1, b2, b3, b4⟩ := hch e _ w' (ts ++ ts1) (by rw [hk]; simp [parts]) a2 hw
      rw [List.append_assoc] at b2 b3 b4
      have a3' : Met types (ts ++ (ts1 ++ ts2)) i := by
        rw [← List.append_assoc]; exact a3.append ts2
      refine ⟨bs1 ++ bs2, ts1 ++ ts2, ?_, b2, by simp [keyOfKind], by simp [keyOfKind], ?_, fun op slots hs ho => ?_⟩
      · rw [b1, a1]; simp [W.emit, keyOfKind]
      · intro c hcc
        simp only [parts, List.mem_cons, List.not_mem_nil, or_false] at hcc
        rcases hcc with rfl | rfl
        · exact a3'
        · exact b3
      · obtain ⟨s1, c1, c2⟩ := a4 op slots hs ho
        obtain ⟨s2, d1, d2⟩ := b4 op (slots ++ s1) c1 ho
        refine ⟨s1 ++ s2, _, by rw [← List.append_assoc slots]; exact d1, rfl, fun rest => ?_⟩
        obtain ⟨k1, c2⟩ := c2 (bs2 ++ rest)
        obtain ⟨k2, d2⟩ := d2 rest
        refine ⟨k1 + k2, fun fuel hf => ?_⟩
        dsimp only [keyOfKind]
        unfold readBody
        rw [if_neg (by decide), if_neg (by decide), if_neg (by decide), if_neg (by decide), if_neg (by decide),
          if_neg (by decide), if_pos rfl, List.append_assoc, c2 fuel (by omega)]
        dsimp only
        rw [d2 fuel (by omega)]
        dsimp only
        have heo : e ∉ op := by
          intro hm
          have := ho e hm
          have hstep : ∀ a b, Reaches types a b → a = e → b = e := by
            intro a b hr
            induction hr with
            | refl => exact id
            | step h1 h2 ih =>
              intro ha
              rw [ih ha, he] at h2
              cases h2
          rw [hstep e p this rfl] at hk
          rw [hk] at he
          cases he
        rw [keyOf_ref d1 b3 (by rw [he]; rfl) heo, he, if_pos (by rfl), ← List.append_assoc ts,
          refOf_append ts2 a3, List.append_assoc slots]
  | struct name ps ms =>
    obtain ⟨f1, f2, f3, f4, f5⟩ := hfit
    rw [writeFormat, if_pos (by omega)] at hw
    cases hw1 : writePairs child ps
        ((((w.emit (le 1 20)).emit (boxed name)).emit (le 2 ps.length)).emit (le 2 ms.length)) with
    | none => rw [hw1] at hw; cases hw
    | some w1 =>
      rw [hw1] at hw
      dsimp only at hw
      obtain ⟨bs1, ts1, a1, a2, a3, a4⟩ := pairs_ok hch none ps _ w1 ts
        (fun m hm => ⟨by rw [hk, parts]; exact List.mem_append_left _ (List.mem_map_of_mem hm), f4 m hm⟩)
        (by simp) ((((hi.emit _).emit _).emit _).emit _) hw1
      obtain ⟨bs2, ts2, b1, b2, b3, b4⟩ := pairs_ok hch none ms _ w' (ts ++ ts1)
        (fun m hm => ⟨by rw [hk, parts]; exact List.mem_append_right _ (List.mem_map_of_mem hm), f5 m hm⟩)
        (by simp) a2 hw
      rw [List.append_assoc] at b2 b3 b4
      refine ⟨boxed name ++ (le 2 ps.length ++ (le 2 ms.length ++ (bs1 ++ bs2))), ts1 ++ ts2, ?_, b2, by simp [keyOfKind],
        by simp [keyOfKind], ?_, fun op slots hs ho => ?_⟩
      · rw [b1, a1]; simp [W.emit, keyOfKind]
      · intro c hcc
        rw [parts] at hcc
        rcases List.mem_append.mp hcc with hcc | hcc
        · obtain ⟨m, hm, rfl⟩ := List.mem_map.mp hcc
          rw [← List.append_assoc]; exact (a3 m hm).append ts2
        · obtain ⟨m, hm, rfl⟩ := List.mem_map.mp hcc
          exact b3 m hm
      · obtain ⟨s1, c1, c2⟩ := a4 op slots hs ho
        obtain ⟨s2, d1, d2⟩ := b4 op (slots ++ s1) c1 ho
        refine ⟨s1 ++ s2, _, by rw [← List.append_assoc slots]; exact d1, rfl, fun rest => ?_⟩
        obtain ⟨k1, c2⟩ := c2 (bs2 ++ rest)
        obtain ⟨k2, d2⟩ := d2 rest
        refine ⟨k1 + k2, fun fuel hf => ?_⟩
        dsimp only [keyOfKind]
        unfold readBody
        rw [if_neg (by decide), if_neg (by decide), if_neg (by decide), if_neg (by decide), if_pos rfl]
        dsimp only
        rw [List.append_assoc, readBoxed_boxed _ _ f1]
        dsimp only
        rw [List.append_assoc, readLe_le 2 _ _ (by simpa using f2)]
        dsimp only
        rw [List.append_assoc, readLe_le 2 _ _ (by simpa using f3)]
        dsimp only
        rw [List.append_assoc, c2 fuel (by omega)]
        dsimp only
        rw [d2 fuel (by omega)]
        dsimp only
        have : ps.map (fun m => (m.1, refOf types op (ts ++ ts1) m.2)) =
            ps.map (fun m => (m.1, refOf types op (ts ++ (ts1 ++ ts2)) m.2)) :=
          List.map_congr_left fun m hm => by rw [← List.append_assoc ts, refOf_append ts2 (a3 m hm)]
        rw [this, List.append_assoc slots]
  | switch name ss =>
    obtain ⟨f1, f2, f3⟩ := hfit
    rw [writeFormat, if_pos (by omega)] at hw
    obtain ⟨bs1, ts1, a1, a2, a3, a4⟩ := pairs_ok hch (some 20) ss _ w' ts
      (fun m hm => ⟨by rw [hk, parts]; exact List.mem_map_of_mem hm, f3 m hm⟩)
      (fun n hn m hm => by
        cases hn
        obtain ⟨a, b, c, hh⟩ := hty m hm
        exact ⟨by rw [hh]; rfl, by rw [hh]; rfl, hsw p hp name ss hk m hm⟩)
      (((hi.emit _).emit _).emit _) hw
    refine ⟨boxed name ++ (le 2 ss.length ++ bs1), ts1, ?_, a2, by simp [keyOfKind], by simp [keyOfKind], ?_,
      fun op slots hs ho => ?_⟩
    · rw [a1]; simp [W.emit, keyOfKind]
    · intro c hcc
      rw [parts] at hcc
      obtain ⟨m, hm, rfl⟩ := List.mem_map.mp hcc
      exact a3 m hm
    · obtain ⟨s1, c1, c2⟩ := a4 op slots hs ho
      refine ⟨s1, _, c1, rfl, fun rest => ?_⟩
      obtain ⟨k1, c2⟩ := c2 rest
      refine ⟨k1, fun fuel hf => ?_⟩
      dsimp only [keyOfKind]
      unfold readBody
      rw [if_neg (by decide), if_neg (by decide), if_neg (by decide), if_neg (by decide), if_neg (by decide),
        if_neg (by decide), if_neg (by decide), if_pos rfl]
      dsimp only
      rw [List.append_assoc, readBoxed_boxed _ _ f1]
      dsimp only
      rw [List.append_assoc, readLe_le 2 _ _ (by simpa using f2)]
      dsimp only
      rw [c2 fuel hf]

theorem add_ok {types : T → Kind} {u : List T} (hc : Closed types u) (hsw : SwitchesEnd types u) :
    ∀ fuel, AddOk types u (addFormat types fuel)
  | 0 => fun _ _ _ _ _ _ _ h => by cases h
  | fuel + 1 => by
    intro t w w' ts ht hid hi hw
    rw [addFormat, hid] at hw
    dsimp only at hw
    have hr : reg (types t) = none ∧ t ∉ ts := by
      rw [hi.ids] at hid
      split at hid
      · cases hid
      · rename_i h'
        refine ⟨h', fun hm => ?_⟩
        rw [if_pos hm] at hid; cases hid
    have hi' := hi.add hc ht hid
    obtain ⟨bs, ts2, h1, h2, h3, h4, h5, h6⟩ := format_ok hc hsw ht hr.1
      (child_ok hc (add_ok hc hsw fuel) ht) _ w' (ts ++ [t]) hi' hw
    rw [List.append_assoc] at h2 h5
    refine ⟨_, [t] ++ ts2, h1, h2, .inr (by simp), fun op slots hs ho => ?_⟩
    have hop : t ∉ op := fun hm => hr.2 (hs.sub t hm)
    obtain ⟨s2, d, g1, g2, g3⟩ := h6 (t :: op) (slots ++ [none]) (hs.grow hr.2) (by
      intro o hoo
      rcases List.mem_cons.mp hoo with rfl | hoo
      · exact .refl
      · exact ho o hoo)
    rw [List.append_assoc] at g1 g2
    have hget : (ts ++ ([t] ++ ts2))[slots.length]? = some t := by
      rw [hs.len]; simp
    have hfill := g1.fill (d := d) h2.nodup hget hop ⟨t :: op, by
      intro o hoo
      rcases List.mem_cons.mp hoo with rfl | hoo
      · exact .refl
      · exact ho o hoo, h5, g2⟩
    have hset : (slots ++ [none] ++ s2).set slots.length (some d) = slots ++ ([some d] ++ s2) := by
      simp
    rw [hset] at hfill
    refine ⟨[some d] ++ s2, hfill, fun rest => ?_⟩
    obtain ⟨k, g3⟩ := g3 rest
    refine ⟨k + 1, fun f hf top => ?_⟩
    obtain ⟨f, rfl⟩ : ∃ f', f = f' + 1 := ⟨f - 1, by omega⟩
    rw [readDesc]
    dsimp only
    rw [List.append_assoc, le_one h4]
    dsimp only
    rw [if_neg (by omega), if_neg (by omega), if_neg (by omega), g3 f (by omega)]
    dsimp only
    rw [hset]
    unfold refOf
    rw [hr.1]
    dsimp only
    rw [if_neg hop, List.idxOf_append, if_neg hr.2, hs.len]
    simp

/-! ## Writing always succeeds -/

theorem Inv.room {types : T → Kind} {u ts : List T} {w : W} (h : Inv types u ts w) {t : T} (ht : t ∈ u)
    (hid : w.ids t = none) : ts.length < u.length := by
  have hr : t ∉ ts := by
    intro hm
    rw [h.ids, h.user t hm] at hid
    dsimp only at hid
    rw [if_pos hm] at hid; cases hid
  have := nodup_length_le (t :: ts) u (List.nodup_cons.mpr ⟨hr, h.nodup⟩) (by
    intro c hc
    rcases List.mem_cons.mp hc with rfl | hc
    · exact ht
    · exact h.sub c hc)
  simp only [List.length_cons] at this
  omega

/-- `child` succeeds on the types in `u`. -/
def Total (types : T → Kind) (u : List T) (n : Nat) (child : T → W → Option W) : Prop :=
  ∀ (c : T) (w : W) (ts : List T), c ∈ u → Inv types u ts w → n ≤ ts.length →
    ∃ w' ts2, child c w = some w' ∧ Inv types u (ts ++ ts2) w'

theorem pairs_total {types : T → Kind} {u : List T} {n : Nat} {child : T → W → Option W}
    (h : Total types u n child) : ∀ (ms : List (List Byte × T)) (w : W) (ts : List T),
    (∀ m ∈ ms, m.2 ∈ u) → Inv types u ts w → n ≤ ts.length →
    ∃ w' ts2, writePairs child ms w = some w' ∧ Inv types u (ts ++ ts2) w'
  | [], w, ts, _, hi, _ => ⟨w, [], rfl, by simpa using hi⟩
  | (s, t) :: ms, w, ts, hm, hi, hn => by
    obtain ⟨w1, ts1, a1, a2⟩ := h t (w.emit (boxed s)) ts (hm (s, t) (by simp)) (hi.emit _) hn
    obtain ⟨w2, ts2, b1, b2⟩ := pairs_total h ms w1 (ts ++ ts1) (fun m hh => hm m (by simp [hh])) a2
      (by simp; omega)
    exact ⟨w2, ts1 ++ ts2, by rw [writePairs, a1]; exact b1, by rw [← List.append_assoc]; exact b2⟩

theorem format_total {types : T → Kind} {u : List T} {n : Nat} {child : T → W → Option W}
    (h : Total types u n child) (k : Kind) (hf : Fits k) (hp : ∀ c ∈ parts k, c ∈ u) (w : W) (ts : List T)
    (hi : Inv types u ts w) (hn : n ≤ ts.length) :
    ∃ w' ts2, writeFormat child k w = some w' ∧ Inv types u (ts ++ ts2) w' := by
  cases k with
  | other => cases hf
  | prim k l => exact ⟨_, [], rfl, by rw [List.append_nil]; exact hi.emit _⟩
  | fixedArray n t => exact h t _ ts (hp t (by simp [parts])) ((hi.emit _).emit _) hn
  | array t => exact h t _ ts (hp t (by simp [parts])) (hi.emit _) hn
  | owned t => exact h t _ ts (hp t (by simp [parts])) (hi.emit _) hn
  | rawPtr t => exact h t _ ts (hp t (by simp [parts])) (hi.emit _) hn
  | enum name size ids =>
    exact ⟨_, [], rfl, by rw [List.append_nil]; exact ((((hi.emit _).emit _).emit _).emit _).emit _⟩
  | enumArray i e =>
    obtain ⟨w1, ts1, a1, a2⟩ := h i (w.emit (le 1 22)) ts (hp i (by simp [parts])) (hi.emit _) hn
    obtain ⟨w2, ts2, b1, b2⟩ := h e w1 (ts ++ ts1) (hp e (by simp [parts])) a2 (by simp; omega)
    exact ⟨w2, ts1 ++ ts2, by rw [writeFormat, a1]; exact b1, by rw [← List.append_assoc]; exact b2⟩
  | struct name ps ms =>
    obtain ⟨w1, ts1, a1, a2⟩ := pairs_total h ps
      ((((w.emit (le 1 20)).emit (boxed name)).emit (le 2 ps.length)).emit (le 2 ms.length)) ts
      (fun m hm => hp _ (by rw [parts]; exact List.mem_append_left _ (List.mem_map_of_mem hm)))
      ((((hi.emit _).emit _).emit _).emit _) hn
    obtain ⟨w2, ts2, b1, b2⟩ := pairs_total h ms w1 (ts ++ ts1)
      (fun m hm => hp _ (by rw [parts]; exact List.mem_append_right _ (List.mem_map_of_mem hm))) a2
      (by simp; omega)
    have := hf.2.1
    have := hf.2.2.1
    exact ⟨w2, ts1 ++ ts2, by rw [writeFormat, if_pos (by omega), a1]; exact b1,
      by rw [← List.append_assoc]; exact b2⟩
  | switch name ss =>
    obtain ⟨w1, ts1, a1, a2⟩ := pairs_total h ss
      (((w.emit (le 1 23)).emit (boxed name)).emit (le 2 ss.length)) ts
      (fun m hm => hp _ (by rw [parts]; exact List.mem_map_of_mem hm)) (((hi.emit _).emit _).emit _) hn
    have := hf.2.1
    exact ⟨w1, ts1, by rw [writeFormat, if_pos (by omega)]; exact a1, a2⟩

theorem add_total {types : T → Kind} {u : List T} (hc : Closed types u) : ∀ (fuel : Nat) (t : T) (w : W)
    (ts : List T), t ∈ u → w.ids t = none → Inv types u ts w → u.length ≤ fuel + ts.length →
    ∃ w' ts2, addFormat types fuel t w = some w' ∧ Inv types u (ts ++ ts2) w'
  | 0, t, w, ts, ht, hid, hi, hn => by
    have := hi.room ht hid
    omega
  | fuel + 1, t, w, ts, ht, hid, hi, hn => by
    have hch : Total types u (u.length - fuel) (writeChild (addFormat types fuel)) := by
      intro c w ts hcu hi hn
      unfold writeChild
      cases hid : w.ids c with
      | none => exact add_total hc fuel c w ts hcu hid hi (by omega)
      | some id => exact ⟨_, [], rfl, by rw [List.append_nil]; exact (hi.emit _).emit _⟩
    obtain ⟨w', ts2, h1, h2⟩ := format_total hch (types t) (hc.fits t ht) (hc.parts t ht) _ (ts ++ [t])
      (hi.add hc ht hid) (by simp; omega)
    refine ⟨w', [t] ++ ts2, ?_, by rw [← List.append_assoc]; exact h2⟩
    rw [addFormat, hid]
    exact h1

/-! ## Whole schemas -/

theorem all_ok {types : T → Kind} {u : List T} (hc : Closed types u) (hsw : SwitchesEnd types u) {fuel : Nat}
    (hf : u.length ≤ fuel) : ∀ (roots : List T) (w : W) (ts : List T), (∀ t ∈ roots, t ∈ u) →
    Inv types u ts w →
    ∃ w' bs ts2, addAll types fuel roots w = some w' ∧ w'.out = w.out ++ bs ∧ Inv types u (ts ++ ts2) w' ∧
      (∀ t ∈ roots, Met types (ts ++ ts2) t) ∧
      ∀ slots, Slots types [] ts slots → ∃ slots2, Slots types [] (ts ++ ts2) (slots ++ slots2) ∧
        ∀ rest, ∃ k, ∀ f n, k ≤ f → k ≤ n → readSchema f n ⟨slots, bs ++ (le 1 0 ++ rest)⟩ =
          some ⟨slots ++ slots2, rest⟩
  | [], w, ts, _, hi => by
    refine ⟨w, [], [], rfl, by simp, by simpa using hi, by simp, fun slots hs =>
      ⟨[], by simpa using hs, fun rest => ⟨1, fun f n hf hn => ?_⟩⟩⟩
    obtain ⟨f, rfl⟩ : ∃ f', f = f' + 1 := ⟨f - 1, by omega⟩
    obtain ⟨n, rfl⟩ : ∃ n', n = n' + 1 := ⟨n - 1, by omega⟩
    rw [readSchema, readDesc]
    dsimp only
    rw [List.nil_append, le_one (by decide)]
    simp
  | t :: roots, w, ts, hr, hi => by
    cases hid : w.ids t with
    | some id =>
      obtain ⟨w', bs, ts2, h1, h2, h3, h4, h5⟩ := all_ok hc hsw hf roots w ts (fun x hx => hr x (by simp [hx])) hi
      refine ⟨w', bs, ts2, ?_, h2, h3, ?_, h5⟩
      · rw [addAll, addOrGet, hid]
        exact h1
      · intro x hx
        rcases List.mem_cons.mp hx with rfl | hx
        · have hm : Met types ts x := by
            rw [hi.ids] at hid
            cases hreg : reg (types x) with
            | some k => exact .inl (by rw [hreg]; rfl)
            | none =>
              rw [hreg] at hid
              dsimp only at hid
              by_cases hm : x ∈ ts
              · exact .inr hm
              · rw [if_neg hm] at hid; cases hid
          exact hm.append ts2
        · exact h4 x hx
    | none =>
      obtain ⟨w1, -, a1, -⟩ := add_total hc fuel t w ts (hr t (by simp)) hid hi (by omega)
      obtain ⟨bs1, ts1, b1, b2, b3, b4⟩ := add_ok hc hsw fuel t w w1 ts (hr t (by simp)) hid hi a1
      obtain ⟨w', bs, ts2, h1, h2, h3, h4, h5⟩ := all_ok hc hsw hf roots w1 (ts ++ ts1)
        (fun x hx => hr x (by simp [hx])) b2
      rw [List.append_assoc] at h3 h4
      refine ⟨w', bs1 ++ bs, ts1 ++ ts2, ?_, ?_, h3, ?_, fun slots hs => ?_⟩
      · rw [addAll, addOrGet, hid]
        dsimp only
        rw [a1]
        exact h1
      · rw [h2, b1, List.append_assoc]
      · intro x hx
        rcases List.mem_cons.mp hx with rfl | hx
        · rw [← List.append_assoc]; exact b3.append ts2
        · exact h4 x hx
      · obtain ⟨s1, c1, c2⟩ := b4 [] slots hs (by simp)
        obtain ⟨s2, d1, d2⟩ := h5 (slots ++ s1) c1
        refine ⟨s1 ++ s2, by rw [← List.append_assoc, ← List.append_assoc slots]; exact d1,
          fun rest => ?_⟩
        obtain ⟨k1, c2⟩ := c2 (bs ++ (le 1 0 ++ rest))
        obtain ⟨k2, d2⟩ := d2 rest
        refine ⟨k1 + k2 + 1, fun f n hf hn => ?_⟩
        obtain ⟨n, rfl⟩ : ∃ n', n = n' + 1 := ⟨n - 1, by omega⟩
        rw [readSchema, List.append_assoc, c2 f (by omega) true]
        have hne : refOf types [] (ts ++ ts1) t ≠ .null := by
          unfold refOf
          cases reg (types t) <;> simp
        rw [← List.append_assoc slots, ← d2 f n (by omega) (by omega)]
        cases hr' : refOf types [] (ts ++ ts1) t with
        | null => exact absurd hr' hne
        | builtin k => rfl
        | user i => rfl

end Verif.Schema

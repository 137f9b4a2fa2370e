import Verif.Arr.Model
import Verif.Arr.Spec
import Verif.Bits.Props
/-!
# Lemmas about memory blocks
-/
namespace Verif.Arr
open Verif Spec

variable {α : Type _}

/-- Raw memory. -/
abbrev raw (k : Nat) : List (Option α) := List.replicate k none

/-- The block holds exactly the items `xs`, followed by raw memory. -/
def Holds (s : Arr α) (xs : List α) : Prop :=
  s.num = xs.length ∧ ∃ k, s.cells = xs.map some ++ raw k

theorem raw_add (a b : Nat) : (raw (a + b) : List (Option α)) = raw a ++ raw b := by
  simp [raw]

theorem destructRange_eq (A C : List (Option α)) (ys : List α) (pos count : Nat)
    (hp : pos = A.length) (hc : count = ys.length) :
    destructRange (A ++ ys.map some ++ C) pos count = some (A ++ raw count ++ C) := by
  subst hp hc
  unfold destructRange
  rw [if_pos]
  · simp only [List.append_assoc, List.take_left', List.append_cancel_left_eq, Option.some.injEq]
    congr 1
    rw [List.drop_append]
    simp [Nat.add_sub_cancel_left]
  · constructor
    · simp
    · simp only [List.append_assoc, List.drop_left']
      rw [List.take_left' (by simp)]
      simp

theorem constructRange_eq (A C : List (Option α)) (vals : List α) (pos : Nat)
    (hp : pos = A.length) :
    constructRange (A ++ raw vals.length ++ C) pos vals = some (A ++ vals.map some ++ C) := by
  subst hp
  unfold constructRange
  rw [if_pos]
  · simp only [List.append_assoc, List.take_left', List.append_cancel_left_eq, Option.some.injEq]
    congr 1
    rw [List.drop_append]
    simp [Nat.add_sub_cancel_left, raw]
  · constructor
    · simp [raw]
    · simp only [List.append_assoc, List.drop_left']
      rw [List.take_left' (by simp [raw])]
      simp [raw]

theorem relocate_eq (cells A M B X Y : List (Option α)) (dst src count : Nat)
    (hcells : cells = A ++ M ++ B) (hsrc : src = A.length) (hcount : count = M.length)
    (hvac : A ++ raw count ++ B = X ++ raw count ++ Y) (hdst : dst = X.length) :
    relocate cells dst src count = some (X ++ M ++ Y) := by
  have hlen : cells.length = X.length + count + Y.length := by
    have := congrArg List.length hvac
    simp only [List.length_append, List.length_replicate, raw] at this
    rw [hcells]
    simp only [List.length_append]
    omega
  have hlen2 : cells.length = A.length + count + B.length := by
    rw [hcells, hcount]; simp only [List.length_append]
  unfold relocate
  rw [if_pos ⟨by omega, by omega⟩]
  have e1 : cells.take src ++ List.replicate count none ++ cells.drop (src + count) =
      X ++ raw count ++ Y := by
    rw [← hvac, hcells, hsrc, hcount]
    congr 1
    · rw [List.append_assoc, List.take_left']
      rfl
    · rw [← List.length_append, List.drop_left']
      rfl
  have e2 : (cells.drop src).take count = M := by
    rw [hcells, hsrc, hcount, List.append_assoc, List.drop_left' rfl, List.take_left' rfl]
  dsimp only
  rw [e1, e2, hdst, if_pos]
  · rw [List.append_assoc X, List.take_left' rfl, ← List.append_assoc X]
    have : X.length + count = (X ++ raw count : List (Option α)).length := by simp [raw]
    rw [this, List.drop_left' rfl]
  · rw [List.append_assoc, List.drop_left' rfl, List.take_left' (by simp [raw])]
    simp [raw]

theorem reallocCells_eq (xs : List α) (k n : Nat) (h : xs.length ≤ n) :
    reallocCells (xs.map some ++ raw k) n = some (xs.map some ++ raw (n - xs.length)) := by
  unfold reallocCells
  have e1 : (xs.map some ++ raw k).drop n = raw (k - (n - xs.length)) := by
    rw [List.drop_append, List.drop_eq_nil_of_le (by simpa using h)]
    simp [raw]
  rw [e1, if_pos (by simp [raw])]
  congr 1
  rw [List.take_append, List.take_of_length_le (by simpa using h), List.append_assoc]
  congr 1
  simp only [List.length_map, raw, List.take_replicate, List.length_append, List.length_replicate,
    List.replicate_append_replicate]
  congr 1
  omega

theorem roundUp_ge (n : Nat) (h : n < 2 ^ 31) : n ≤ Bits.roundUpPowerOf2_32 n := by
  rcases Nat.eq_zero_or_pos n with h0 | h0
  · subst h0; exact Nat.zero_le _
  · exact (Bits.C29_roundUp32_least n h0 (by omega)).2.1

theorem reserve_holds (n : Nat) (s : Arr α) (xs : List α) (h : Holds s xs) (hx : xs.length < 2 ^ 31)
    (hn : n < 2 ^ 31) :
    ∃ s', reserve n s = some s' ∧ Holds s' xs ∧ n ≤ s'.cells.length := by
  obtain ⟨h1, k, h2⟩ := h
  unfold reserve
  dsimp only
  rw [u32_of_lt (n := n) (by omega)]
  have hlen : s.cells.length = xs.length + k := by rw [h2]; simp [raw]
  by_cases hc : n > s.cells.length
  · rw [if_pos hc]
    have hr := roundUp_ge n hn
    rw [h2, reallocCells_eq xs k _ (by omega)]
    refine ⟨_, rfl, ⟨h1, _, rfl⟩, ?_⟩
    simp [raw]; omega
  · rw [if_neg hc]
    exact ⟨s, rfl, ⟨h1, k, h2⟩, by omega⟩

/-- After reserving, the raw tail has room for the requested items. -/
theorem Holds.room {s : Arr α} {xs : List α} (h : Holds s xs) (m : Nat)
    (hm : xs.length + m ≤ s.cells.length) : ∃ k, s.cells = xs.map some ++ raw m ++ raw k := by
  obtain ⟨_, k, h2⟩ := h
  have hlen : s.cells.length = xs.length + k := by rw [h2]; simp [raw]
  refine ⟨k - m, ?_⟩
  rw [h2, List.append_assoc, ← raw_add]
  congr 2
  omega

theorem append_holds (x : α) (s : Arr α) (xs : List α) (h : Holds s xs)
    (hx : xs.length + 1 < 2 ^ 31) : ∃ s', append x s = some s' ∧ Holds s' (xs ++ [x]) := by
  have hpre : ∃ s1, (if s.num ≥ s.cells.length then reserve (s.num + 1) s else some s) = some s1 ∧
      Holds s1 xs ∧ xs.length + 1 ≤ s1.cells.length := by
    have h1 := h.1
    by_cases hc : s.num ≥ s.cells.length
    · rw [if_pos hc, h1]
      exact reserve_holds (xs.length + 1) s xs h (by omega) hx
    · rw [if_neg hc]; exact ⟨s, rfl, h, by omega⟩
  obtain ⟨s1, e1, e2, e3⟩ := hpre
  obtain ⟨k, e4⟩ := e2.room 1 e3
  unfold append
  rw [e1]
  dsimp only
  have := constructRange_eq (xs.map some) (raw k) [x] s1.num (by simp [e2.1])
  simp only [List.length_cons, List.length_nil, Nat.zero_add] at this
  rw [e4, this]
  refine ⟨_, rfl, ?_, k, ?_⟩
  · dsimp only; rw [e2.1, u32_of_lt (n := xs.length + 1) (by omega)]; simp
  · simp

theorem extend_holds (ys : List α) (s : Arr α) (xs : List α) (h : Holds s xs)
    (hx : xs.length + ys.length < 2 ^ 31) :
    ∃ s', extend ys s = some s' ∧ Holds s' (xs ++ ys) := by
  obtain ⟨s1, e1, e2, e3⟩ := reserve_holds (xs.length + ys.length) s xs h (by omega) hx
  obtain ⟨k, e4⟩ := e2.room ys.length e3
  unfold extend
  rw [h.1, e1]
  dsimp only
  rw [e4, constructRange_eq (xs.map some) (raw k) ys s1.num (by simp [e2.1])]
  refine ⟨_, rfl, ?_, k, ?_⟩
  · dsimp only; rw [e2.1, u32_of_lt (n := xs.length + ys.length) (by omega)]; simp
  · simp

theorem split_at (xs : List α) (pos : Nat) (h : pos ≤ xs.length) :
    ∃ a b, xs = a ++ b ∧ a.length = pos ∧ xs.take pos = a ∧ xs.drop pos = b :=
  ⟨xs.take pos, xs.drop pos, (List.take_append_drop _ _).symm, by rw [List.length_take]; omega,
    rfl, rfl⟩

theorem resize_holds (d : α) (n : Nat) (s : Arr α) (xs : List α) (h : Holds s xs)
    (hx : xs.length < 2 ^ 31) (hn : n < 2 ^ 31) :
    ∃ s', resize d n s = some s' ∧ Holds s' (xs.take n ++ List.replicate (n - xs.length) d) := by
  unfold resize
  obtain ⟨h1, k, h2⟩ := h
  by_cases hc : n < s.num
  · obtain ⟨a, b, hab, ha, hta, hdb⟩ := split_at xs n (by omega)
    have hbl : s.num - n = b.length := by rw [h1, hab, List.length_append]; omega
    have hd : destructRange s.cells n (s.num - n) = some (a.map some ++ raw (s.num - n) ++ raw k) := by
      rw [h2, hab, List.map_append]
      exact destructRange_eq (a.map some) (raw k) b n (s.num - n) (by simp [ha]) hbl
    rw [if_pos hc, hd]
    dsimp only [Option.map_some]
    have hle : n ≤ (a.map some ++ raw (s.num - n) ++ raw k : List (Option α)).length := by
      simp; omega
    have hres : reserve n { s with cells := a.map some ++ raw (s.num - n) ++ raw k } =
        some { s with cells := a.map some ++ raw (s.num - n) ++ raw k } := by
      unfold reserve
      dsimp only
      rw [u32_of_lt (n := n) (by omega), if_neg (by omega)]
    rw [hres]
    dsimp only
    rw [if_neg (by omega)]
    refine ⟨_, rfl, ?_, s.num - n + k, ?_⟩
    · dsimp only
      rw [List.length_append, List.length_replicate, List.length_take]
      omega
    · dsimp only
      have hz : n - xs.length = 0 := by omega
      rw [hta, hz]
      simp [raw]
  · rw [if_neg hc]
    dsimp only
    obtain ⟨s1, e1, e2, e3⟩ := reserve_holds n s xs ⟨h1, k, h2⟩ hx hn
    rw [e1]
    dsimp only
    have ht : xs.take n = xs := List.take_of_length_le (by omega)
    rw [ht]
    by_cases hg : n > s1.num
    · rw [if_pos hg]
      have := e2.1
      obtain ⟨k2, e4⟩ := e2.room (n - s1.num) (by omega)
      have hcr := constructRange_eq (xs.map some) (raw k2) (List.replicate (n - s1.num) d) s1.num
        (by simp [e2.1])
      rw [List.length_replicate] at hcr
      rw [e4, hcr]
      refine ⟨_, rfl, ?_, k2, ?_⟩
      · dsimp only; rw [List.length_append, List.length_replicate]; omega
      · dsimp only; rw [List.map_append, e2.1]
    · rw [if_neg hg]
      have := e2.1
      have hz : n - xs.length = 0 := by omega
      rw [hz, List.replicate_zero, List.append_nil]
      have hnn : n = xs.length := by omega
      exact ⟨_, rfl, hnn, e2.2⟩

theorem insert_holds (d : α) (pos count : Nat) (s : Arr α) (xs : List α) (h : Holds s xs)
    (hp : pos ≤ xs.length) (hx : xs.length + count < 2 ^ 31) :
    ∃ s', insert d pos count s = some s' ∧
      Holds s' (xs.take pos ++ List.replicate count d ++ xs.drop pos) := by
  obtain ⟨s1, e1, e2, e3⟩ := reserve_holds (xs.length + count) s xs h (by omega) hx
  obtain ⟨k, e4⟩ := e2.room count e3
  have hn := e2.1
  obtain ⟨a, b, hab, ha, hta, hdb⟩ := split_at xs pos hp
  unfold insert
  rw [h.1, if_pos hp, e1]
  dsimp only
  have hbl : s1.num - pos = b.length := by rw [hn, hab, List.length_append]; omega
  have hrel : relocate s1.cells (pos + count) pos (s1.num - pos) =
      some (a.map some ++ raw count ++ b.map some ++ raw k) := by
    refine relocate_eq s1.cells (a.map some) (b.map some) (raw count ++ raw k)
      (a.map some ++ raw count) (raw k) _ _ _ ?_ (by simp [ha]) (by simp [hbl]) ?_ (by simp [ha])
    · rw [e4, hab]; simp
    · simp only [List.append_assoc, ← raw_add]
      congr 2
      omega
  rw [hrel]
  dsimp only
  have hcr := constructRange_eq (a.map some) (b.map some ++ raw k) (List.replicate count d) pos
    (by simp [ha])
  rw [List.length_replicate, ← List.append_assoc] at hcr
  rw [hcr]
  refine ⟨_, rfl, ?_, k, ?_⟩
  · dsimp only
    rw [hn, u32_of_lt (n := xs.length + count) (by omega)]
    simp only [List.length_append, List.length_take, List.length_drop, List.length_replicate]
    omega
  · dsimp only; rw [hta, hdb]; simp

theorem erase_holds (pos count : Nat) (s : Arr α) (xs : List α) (h : Holds s xs)
    (hx : xs.length < 2 ^ 31) (hp : pos + count ≤ xs.length) :
    ∃ s', erase pos count s = some s' ∧ Holds s' (xs.take pos ++ xs.drop (pos + count)) := by
  obtain ⟨h1, k, h2⟩ := h
  obtain ⟨a, r, har, ha, hta, hdr⟩ := split_at xs pos (by omega)
  have hrl : count ≤ r.length := by
    have := congrArg List.length har; rw [List.length_append] at this; omega
  obtain ⟨b, c, hbc, hb, _, hdc⟩ := split_at r count hrl
  have hdrop : xs.drop (pos + count) = c := by rw [← List.drop_drop, hdr, hdc]
  have hcl : s.num - (pos + count) = c.length := by
    rw [h1, ← hdrop, List.length_drop]
  unfold erase
  rw [u32_of_lt (n := pos + count) (by omega), h1, if_pos hp]
  have hd : destructRange s.cells pos count = some (a.map some ++ raw count ++ (c.map some ++ raw k)) := by
    rw [h2, har, hbc]
    have := destructRange_eq (a.map some) (c.map some ++ raw k) b pos count (by simp [ha]) hb.symm
    simpa using this
  rw [hd]
  dsimp only
  rw [← h1]
  have hrel : relocate (a.map some ++ raw count ++ (c.map some ++ raw k)) pos (pos + count)
      (s.num - (pos + count)) = some (a.map some ++ c.map some ++ raw (count + k)) := by
    refine relocate_eq _ (a.map some ++ raw count) (c.map some) (raw k) (a.map some) (raw (count + k))
      _ _ _ (by simp) (by simp [ha]) (by simp [hcl]) ?_ (by simp [ha])
    simp only [List.append_assoc, ← raw_add]
    congr 2
    omega
  rw [hrel]
  refine ⟨_, rfl, ?_, count + k, ?_⟩
  · dsimp only
    rw [List.length_append, List.length_take, List.length_drop, h1]; omega
  · dsimp only; rw [hta, hdrop, List.map_append]

theorem quick_holds (pos count : Nat) (s : Arr α) (xs : List α) (h : Holds s xs)
    (hx : xs.length < 2 ^ 31) (hp : pos + 2 * count ≤ xs.length ∨ pos + count = xs.length) :
    ∃ c s', destructRange s.cells pos count = some c ∧
      relocate c pos (s.num - count) count = some s'.cells ∧ s'.num = s.num - count ∧
      ∃ ys, Holds s' ys ∧ Step.Quick xs pos count ys := by
  obtain ⟨h1, k, h2⟩ := h
  obtain ⟨a, r, har, ha, hta, hdr⟩ := split_at xs pos (by omega)
  have hxl := congrArg List.length har
  rw [List.length_append] at hxl
  rcases hp with hp | hp
  · obtain ⟨b, c, hbc, hb, _, hdc⟩ := split_at r count (by omega)
    have hrl := congrArg List.length hbc
    rw [List.length_append] at hrl
    obtain ⟨m, l, hml, hm, _, _⟩ := split_at c (c.length - count) (by omega)
    have hcl := congrArg List.length hml
    rw [List.length_append] at hcl
    have hll : l.length = count := by omega
    refine ⟨a.map some ++ raw count ++ (m.map some ++ l.map some ++ raw k),
      ⟨a.map some ++ l.map some ++ (m.map some ++ raw count ++ raw k), s.num - count⟩, ?_, ?_, rfl,
      a ++ l ++ m, ⟨?_, count + k, ?_⟩, ?_, ?_⟩
    · rw [h2, har, hbc, hml]
      have := destructRange_eq (a.map some) (m.map some ++ l.map some ++ raw k) b pos count
        (by simp [ha]) hb.symm
      simpa using this
    · refine relocate_eq _ (a.map some ++ raw count ++ m.map some) (l.map some) (raw k) (a.map some)
        (m.map some ++ raw count ++ raw k) _ _ _ (by simp) ?_ (by simp [hll]) ?_ (by simp [ha])
      · simp [ha, hm]; omega
      · simp only [List.append_assoc]
    · simp only [List.length_append]; omega
    · simp only [List.map_append, List.append_assoc, ← raw_add]
    · have : xs.drop (pos + count) = m ++ l := by rw [← List.drop_drop, hdr, hdc, hml]
      rw [hta, this, List.append_assoc]
      exact (List.perm_append_comm).append_left a
    · intro i hi1 hi2
      rw [har, hbc, hml]
      rcases hi2 with hi2 | hi2
      · rw [List.append_assoc, List.getElem?_append_left (by omega),
          List.getElem?_append_left (by omega)]
      · rw [List.getElem?_append_right (by rw [List.length_append]; omega),
          List.getElem?_append_right (by omega), List.getElem?_append_right (by omega),
          List.getElem?_append_left (by omega)]
        congr 1
        rw [List.length_append]
        omega
  · have hrc : r.length = count := by omega
    refine ⟨a.map some ++ raw count ++ raw k, ⟨a.map some ++ raw count ++ raw k, s.num - count⟩, ?_, ?_,
      rfl, a, ⟨?_, count + k, ?_⟩, ?_, ?_⟩
    · rw [h2, har, List.map_append]
      exact destructRange_eq (a.map some) (raw k) r pos count (by simp [ha]) hrc.symm
    · exact relocate_eq _ (a.map some) (raw count) (raw k) (a.map some) (raw k) _ _ _ (by simp)
        (by simp [ha]; omega) (by simp) rfl (by simp [ha])
    · dsimp only; omega
    · simp only [List.append_assoc, ← raw_add]
    · rw [hta, hp, List.drop_length, List.append_nil]
    · intro i hi1 _
      rw [har, List.getElem?_append_left (by omega)]

theorem eraseQuick1_holds (pos : Nat) (s : Arr α) (xs : List α) (h : Holds s xs)
    (hx : xs.length < 2 ^ 31) (hp : pos < xs.length) :
    ∃ s' ys, eraseQuick1 pos s = some s' ∧ Holds s' ys ∧ Step.Quick xs pos 1 ys := by
  obtain ⟨c, s', e1, e2, e3, ys, e4, e5⟩ := quick_holds pos 1 s xs h hx (by omega)
  refine ⟨s', ys, ?_, e4, e5⟩
  unfold eraseQuick1
  rw [h.1, if_pos hp, ← h.1, e1]
  dsimp only
  rw [e2, ← e3]; rfl

theorem eraseQuick_holds (pos count : Nat) (s : Arr α) (xs : List α) (h : Holds s xs)
    (hx : xs.length < 2 ^ 31) (hp : pos + 2 * count ≤ xs.length ∨ pos + count = xs.length) :
    ∃ s' ys, eraseQuick pos count s = some s' ∧ Holds s' ys ∧ Step.Quick xs pos count ys := by
  obtain ⟨c, s', e1, e2, e3, ys, e4, e5⟩ := quick_holds pos count s xs h hx hp
  refine ⟨s', ys, ?_, e4, e5⟩
  unfold eraseQuick
  rw [u32_of_lt (n := pos + count) (by omega), h.1, if_pos (by omega), ← h.1, e1]
  dsimp only
  rw [e2, ← e3]; rfl

theorem get_holds (i : Nat) (s : Arr α) (xs : List α) (h : Holds s xs) : get i s = xs[i]? := by
  obtain ⟨h1, k, h2⟩ := h
  unfold get
  by_cases hc : i < s.num
  · have hi : i < xs.length := by omega
    rw [if_pos hc, h2, List.getElem?_append_left (by simpa using hi), List.getElem?_map,
      List.getElem?_eq_getElem hi]
    rfl
  · rw [if_neg hc, List.getElem?_eq_none (by omega)]

/-- Erasing the item at `i` quickly keeps everything before `i`. -/
theorem quick_take (xs ys : List α) (i : Nat) (hi : i < xs.length) (h : Step.Quick xs i 1 ys) :
    ys.take i = xs.take i ∧ ys.length + 1 = xs.length ∧ (ys.drop i).Perm (xs.drop (i + 1)) := by
  obtain ⟨hp, hidx⟩ := h
  have hlen : ys.length + 1 = xs.length := by
    have := hp.length_eq
    simp only [List.length_append, List.length_take, List.length_drop] at this
    omega
  have htake : ys.take i = xs.take i := by
    apply List.ext_getElem?
    intro j
    rw [List.getElem?_take, List.getElem?_take]
    by_cases hj : j < i
    · rw [if_pos hj, if_pos hj]; exact hidx j (by omega) (Or.inl hj)
    · rw [if_neg hj, if_neg hj]
  refine ⟨htake, hlen, ?_⟩
  rw [← List.take_append_drop i ys, htake] at hp
  exact (List.perm_append_left_iff _).mp hp

theorem filterLoop_holds (p : α → Bool) (fuel i : Nat) (s : Arr α) (xs : List α) (h : Holds s xs)
    (hx : xs.length < 2 ^ 31) (hi : i ≤ xs.length) (hf : xs.length < fuel + i) :
    ∃ s' ys, filterLoop p fuel i s = some s' ∧ Holds s' ys ∧
      ys.Perm (xs.take i ++ (xs.drop i).filter p) := by
  induction fuel generalizing i s xs with
  | zero => omega
  | succ fuel ih =>
    simp only [filterLoop, get_holds i s xs h]
    by_cases hc : i < s.num
    · have hi' : i < xs.length := by rw [← h.1]; exact hc
      have hdrop : xs.drop i = xs[i] :: xs.drop (i + 1) := List.drop_eq_getElem_cons hi'
      rw [if_pos hc, List.getElem?_eq_getElem hi']
      dsimp only
      by_cases hpx : p xs[i] = true
      · rw [if_pos hpx]
        obtain ⟨s', ys, e1, e2, e3⟩ := ih (i + 1) s xs h hx (by omega) (by omega)
        refine ⟨s', ys, e1, e2, ?_⟩
        rw [hdrop, List.filter_cons_of_pos hpx]
        rw [List.take_succ_eq_append_getElem hi', List.append_assoc] at e3
        exact e3
      · rw [if_neg hpx]
        obtain ⟨s1, zs, e1, e2, e3⟩ := eraseQuick1_holds i s xs h hx hi'
        rw [e1]
        dsimp only
        obtain ⟨q1, q2, q3⟩ := quick_take xs zs i hi' e3
        obtain ⟨s', ys, f1, f2, f3⟩ := ih i s1 zs e2 (by omega) (by omega) (by omega)
        refine ⟨s', ys, f1, f2, ?_⟩
        rw [hdrop, List.filter_cons_of_neg hpx, ← q1]
        exact f3.trans ((q3.filter p).append_left _)
    · rw [if_neg hc]
      have hil : i = xs.length := by have := h.1; omega
      refine ⟨s, xs, rfl, h, ?_⟩
      rw [hil, List.take_length, List.drop_length]
      simp

theorem clear_holds (s : Arr α) (xs : List α) (h : Holds s xs) :
    destructRange s.cells 0 s.num = some (raw s.cells.length) := by
  obtain ⟨h1, k, h2⟩ := h
  have := destructRange_eq [] (raw k) xs 0 s.num rfl h1
  rw [List.nil_append] at this
  rw [h2, this, List.nil_append, ← raw_add]
  simp [h1]

theorem bind_eq {β γ : Type _} {x : Option β} {a : β} {f : β → Option γ} (h : x = some a) :
    x.bind f = f a := by subst h; rfl

theorem construct_first (ys : List α) (cap : Nat) (h : ys.length ≤ cap) :
    constructRange (raw cap) 0 ys = some (ys.map some ++ raw (cap - ys.length)) := by
  have hraw : (raw cap : List (Option α)) = [] ++ raw ys.length ++ raw (cap - ys.length) := by
    rw [List.nil_append, ← raw_add, Nat.add_sub_cancel' h]
  rw [hraw]
  exact constructRange_eq [] _ ys 0 rfl

theorem realloc_raw (n cap : Nat) : reallocCells (raw n : List (Option α)) cap = some (raw cap) := by
  have hr := reallocCells_eq ([] : List α) n cap (by simp)
  simpa using hr

theorem assign_holds (ys : List α) (s : Arr α) (xs : List α) (h : Holds s xs)
    (hy : ys.length < 2 ^ 31) : ∃ s', assignList ys s = some s' ∧ Holds s' ys := by
  refine ⟨⟨ys.map some ++ raw (Bits.roundUpPowerOf2_32 ys.length - ys.length), ys.length⟩, ?_,
    rfl, _, rfl⟩
  refine (bind_eq (clear_holds s xs h)).trans ((bind_eq (realloc_raw _ _)).trans ?_)
  exact congrArg (Option.map _) (construct_first ys _ (roundUp_ge ys.length hy))

end Verif.Arr

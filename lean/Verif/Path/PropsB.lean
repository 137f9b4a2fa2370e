import Verif.Path.Props
/-!
# Properties of path splitting and conversion (C24, C54)
-/
namespace Verif.Path
open Verif Spec

theorem rfindByte_cases (m : Byte → Bool) (s : List Byte) :
    (Str.rfindByte m s = some (.negSucc 0) ∧ ∀ c ∈ s, m c = false) ∨
    ∃ A c B, s = A ++ c :: B ∧ (∀ b ∈ B, m b = false) ∧ m c = true ∧
      Str.rfindByte m s = some (.ofNat A.length) := by
  have := rfindLoop_cases m s s.length (Nat.le_refl _)
  rw [List.take_length] at this
  exact this

/-- A root: one separator, or (Windows) a drive letter, colon and separator. -/
def IsRoot (win : Bool) (d : List Byte) : Prop :=
  (∃ c, d = [c] ∧ Spec.Sep win c) ∨
    ∃ l c, win = true ∧ Letter l ∧ Spec.Sep win c ∧ d = [l, 58, c]

/-- A drive letter and colon alone. -/
def IsDrive (win : Bool) (d : List Byte) : Prop := ∃ l, win = true ∧ Letter l ∧ d = [l, 58]

/-- Splitting off the last name: the two parts and the separators removed between them are the path;
the name has no separator; the directory ends with no separator unless it is a root; a drive keeps
its separator. -/
theorem C24_split (win : Bool) (path : List Byte) :
    ∃ dir seps name, split win path = some (dir, name) ∧ path = dir ++ seps ++ name ∧
      (∀ c ∈ seps, Spec.Sep win c) ∧ (∀ c ∈ name, ¬ Spec.Sep win c) ∧
      ((dir = [] ∧ seps = []) ∨
       (∃ l, dir.getLast? = some l ∧ ¬ Spec.Sep win l ∧ seps ≠ [] ∧ ¬ IsDrive win dir) ∨
       IsRoot win dir) := by
  unfold split
  rcases rfindByte_cases (isSep win) path with ⟨e1, e2⟩ | ⟨A, c, B, e1, e2, e3, e4⟩
  · rw [e1]
    refine ⟨[], [], path, rfl, rfl, by simp, ?_, Or.inl ⟨rfl, rfl⟩⟩
    intro x hx
    exact (not_isSep_iff win x).mp (e2 x hx)
  · rw [e4]
    dsimp only
    have hc := (isSep_iff win c).mp e3
    have hB : ∀ b ∈ B, ¬ Spec.Sep win b := fun b hb => (not_isSep_iff win b).mp (e2 b hb)
    have htk : path.take (A.length + 1) = A ++ [c] := by
      rw [e1, show A ++ c :: B = (A ++ [c]) ++ B by simp, List.take_left' (by simp)]
    have hdr : path.drop (A.length + 1) = B := by
      rw [e1, show A ++ c :: B = (A ++ [c]) ++ B by simp, List.drop_left' (by simp)]
    have hlen : A.length + 1 ≤ path.length := by rw [e1]; simp
    have h := rfindLoop_cases (fun c => !isSep win c) path (A.length + 1) hlen
    rw [htk] at h
    rcases h with ⟨f1, f2⟩ | ⟨A2, x, B2, f1, f2, f3, f4⟩
    · rw [f1]
      dsimp only
      have hseps : ∀ x ∈ A ++ [c], Spec.Sep win x :=
        fun x hx => (isSep_iff win x).mp (by simpa using f2 x hx)
      obtain ⟨y, ys, hy⟩ : ∃ y ys, A ++ [c] = y :: ys := by cases A <;> exact ⟨_, _, rfl⟩
      have hpath : path = y :: (ys ++ B) := by
        rw [e1, show A ++ c :: B = (A ++ [c]) ++ B by simp, hy]; rfl
      have hys : Spec.Sep win y := hseps y (by rw [hy]; simp)
      have hnd : getDriveLetter win path = [] := by
        unfold getDriveLetter
        rw [if_neg]
        rw [hpath]
        intro hh
        cases win with
        | false => simp [hasDriveLetter] at hh
        | true =>
          cases hr : ys ++ B with
          | nil => rw [hr] at hh; simp [hasDriveLetter] at hh
          | cons z zs =>
            rw [hr] at hh
            simp only [hasDriveLetter, Bool.not_true, Bool.false_eq_true, ↓reduceIte,
              Bool.and_eq_true] at hh
            have hL := (letter_iff y).mp hh.1
            revert hys hL
            revert y
            intro y _ _ _ hys hL
            rcases hys with rfl | ⟨_, rfl⟩ <;> revert hL <;> decide
      refine ⟨[y], ys, B, ?_, ?_, ?_, hB, Or.inr (Or.inr (Or.inl ⟨y, rfl, hys⟩))⟩
      · rw [hdr, hnd]
        rw [show (Int.negSucc 0 + 1).toNat = 0 from rfl, if_pos (List.take_zero), hpath]
        rfl
      · rw [hpath]; simp
      · intro z hz; exact hseps z (by rw [hy]; simp [hz])
    · rw [f4]
      dsimp only
      have hx : ¬ Spec.Sep win x := (not_isSep_iff win x).mp (by simpa using f3)
      have hB2 : ∀ b ∈ B2, Spec.Sep win b := fun b hb => (isSep_iff win b).mp (by simpa using f2 b hb)
      have hp : (Int.ofNat A2.length + 1).toNat = A2.length + 1 := rfl
      have hpath : path = A2 ++ [x] ++ B2 ++ B := by
        rw [e1, show A ++ c :: B = (A ++ [c]) ++ B by simp, f1]; simp
      have hB2ne : B2 ≠ [] := by
        rintro rfl
        have : c = x := by
          have h1 := congrArg List.getLast? f1
          simpa using h1
        rw [this] at hc
        exact hx hc
      have htk2 : path.take (A2.length + 1) = A2 ++ [x] := by
        rw [hpath, List.append_assoc, List.take_left' (by simp)]
      rw [hdr, hp, htk2]
      by_cases hd : A2 ++ [x] = getDriveLetter win path
      · rw [if_pos hd]
        -- the directory is a drive: keep one separator
        have hhas : hasDriveLetter win path = true := by
          unfold getDriveLetter at hd
          by_cases hh : hasDriveLetter win path = true
          · exact hh
          · rw [if_neg hh] at hd; simp at hd
        have hd2 : A2 ++ [x] = path.take 2 := by
          rw [hd]; unfold getDriveLetter; rw [if_pos hhas]
        obtain ⟨b, bs, hb⟩ : ∃ b bs, B2 = b :: bs := by
          cases B2 with
          | nil => exact absurd rfl hB2ne
          | cons b bs => exact ⟨b, bs, rfl⟩
        have hcl : ∃ l r, win = true ∧ Letter l ∧ path = l :: 58 :: r := by
          rcases parse_cases win path with ⟨l, r, hw, hpp, hL, _⟩ | ⟨l, r, hw, hpp, hL, _⟩ |
            ⟨_, hh, _⟩ | ⟨hh, _⟩
          · exact ⟨l, r, hw, hL, hpp⟩
          · exact ⟨l, r, hw, hL, hpp⟩
          · rw [hh] at hhas; cases hhas
          · rw [hh] at hhas; cases hhas
        obtain ⟨l, r, hw, hL, hpp⟩ := hcl
        have hA2 : A2 ++ [x] = [l, 58] := by rw [hd2, hpp]; rfl
        have hdir : path.take (A2.length + 1 + 1) = [l, 58, b] := by
          have hl2 : A2.length + 1 = 2 := by
            have := congrArg List.length hA2
            simpa using this
          rw [hl2, hpath, hA2, hb]; rfl
        refine ⟨[l, 58, b], bs, B, by rw [hdir], ?_, ?_, hB, Or.inr (Or.inr (Or.inr ?_))⟩
        · rw [hpath, hA2, hb]; simp
        · intro z hz; exact hB2 z (by rw [hb]; simp [hz])
        · exact ⟨l, b, hw, hL, hB2 b (by rw [hb]; simp), rfl⟩
      · rw [if_neg hd, htk2]
        refine ⟨A2 ++ [x], B2, B, rfl, hpath, hB2, hB, Or.inr (Or.inl ⟨x, by simp, hx, hB2ne, ?_⟩)⟩
        rintro ⟨l, hw, hL, hA2⟩
        apply hd
        subst hw
        unfold getDriveLetter
        rw [if_pos, hpath, hA2]
        · rfl
        · rw [hpath, hA2]
          simp [hasDriveLetter, (letter_iff l).mpr hL]

example : split false (txt "a//b///c.txt") = some (txt "a//b", txt "c.txt") ∧
    split false (txt "//x") = some (txt "/", txt "x") ∧
    split true (txt "C:\\x") = some (txt "C:\\", txt "x") ∧
    split true (txt "C:x") = some ([], txt "C:x") := by decide +kernel

/-- These conditions leave no choice. -/
theorem C24_split_unique (win : Bool) (path dir seps name dir' seps' name' : List Byte)
    (h1 : path = dir ++ seps ++ name) (h2 : ∀ c ∈ seps, Spec.Sep win c)
    (h3 : ∀ c ∈ name, ¬ Spec.Sep win c)
    (h4 : (dir = [] ∧ seps = []) ∨
       (∃ l, dir.getLast? = some l ∧ ¬ Spec.Sep win l ∧ seps ≠ [] ∧ ¬ IsDrive win dir) ∨ IsRoot win dir)
    (g1 : path = dir' ++ seps' ++ name') (g2 : ∀ c ∈ seps', Spec.Sep win c)
    (g3 : ∀ c ∈ name', ¬ Spec.Sep win c)
    (g4 : (dir' = [] ∧ seps' = []) ∨
       (∃ l, dir'.getLast? = some l ∧ ¬ Spec.Sep win l ∧ seps' ≠ [] ∧ ¬ IsDrive win dir') ∨
       IsRoot win dir') :
    dir = dir' ∧ seps = seps' ∧ name = name' := by
  -- what stands before the name is empty or ends with a separator
  have pre : ∀ d s : List Byte, (∀ c ∈ s, Spec.Sep win c) →
      ((d = [] ∧ s = []) ∨ (∃ l, d.getLast? = some l ∧ ¬ Spec.Sep win l ∧ s ≠ [] ∧ ¬ IsDrive win d) ∨
        IsRoot win d) → d ++ s = [] ∨ ∃ l, (d ++ s).getLast? = some l ∧ Spec.Sep win l := by
    intro d s hs hd
    rcases List.eq_nil_or_concat s with rfl | ⟨s', x, rfl⟩
    · rcases hd with ⟨rfl, _⟩ | ⟨_, _, _, hne, _⟩ | hr
      · exact Or.inl rfl
      · exact absurd rfl hne
      · right
        rcases hr with ⟨c, rfl, hc⟩ | ⟨l, c, _, _, hc, rfl⟩
        · exact ⟨c, by simp, hc⟩
        · exact ⟨c, by simp, hc⟩
    · right
      exact ⟨x, by simp [List.concat_eq_append], hs x (by simp [List.concat_eq_append])⟩
  have hn : name = name' := by
    have e : (dir ++ seps) ++ name = (dir' ++ seps') ++ name' := by rw [← h1, ← g1]
    have p1 := pre dir seps h2 h4
    have p2 := pre dir' seps' g2 g4
    rcases List.append_eq_append_iff.mp e with ⟨a, ea, eb⟩ | ⟨a, ea, eb⟩
    · rcases List.eq_nil_or_concat a with rfl | ⟨a', x, rfl⟩
      · simpa using eb
      · exfalso
        rw [List.concat_eq_append] at ea eb
        have hx := h3 x (by rw [eb]; simp)
        rcases p2 with p2 | ⟨l, p2, p3⟩
        · rw [p2] at ea; simp at ea
        · rw [ea, ← List.append_assoc, List.getLast?_append] at p2
          simp at p2
          rw [p2] at hx
          exact hx p3
    · rcases List.eq_nil_or_concat a with rfl | ⟨a', x, rfl⟩
      · simpa using eb.symm
      · exfalso
        rw [List.concat_eq_append] at ea eb
        have hx := g3 x (by rw [eb]; simp)
        rcases p1 with p1 | ⟨l, p1, p3⟩
        · rw [p1] at ea; simp at ea
        · rw [ea, ← List.append_assoc, List.getLast?_append] at p1
          simp at p1
          rw [p1] at hx
          exact hx p3
  subst hn
  have e : dir ++ seps = dir' ++ seps' := List.append_cancel_right (h1.symm.trans g1)
  suffices hd : dir = dir' by
    subst hd
    exact ⟨rfl, List.append_cancel_left e, rfl⟩
  -- one of the two is longer; compare
  have key : ∀ d s d' s' a : List Byte, d' = d ++ a → s = a ++ s' → (∀ c ∈ s, Spec.Sep win c) →
      ((d = [] ∧ s = []) ∨ (∃ l, d.getLast? = some l ∧ ¬ Spec.Sep win l ∧ s ≠ [] ∧ ¬ IsDrive win d) ∨
        IsRoot win d) →
      ((d' = [] ∧ s' = []) ∨
        (∃ l, d'.getLast? = some l ∧ ¬ Spec.Sep win l ∧ s' ≠ [] ∧ ¬ IsDrive win d') ∨
        IsRoot win d') → a = [] := by
    intro d s d' s' a hd' hs hsep hd hdd
    rcases List.eq_nil_or_concat a with rfl | ⟨a', x, rfl⟩
    · rfl
    · exfalso
      rw [List.concat_eq_append] at hd' hs
      have hx : Spec.Sep win x := hsep x (by rw [hs]; simp)
      have hl : d'.getLast? = some x := by rw [hd']; simp
      rcases hdd with ⟨rfl, _⟩ | ⟨l, h5, h6, _, _⟩ | hr
      · simp at hd'
      · rw [h5] at hl
        injection hl with hl
        rw [hl] at h6
        exact h6 hx
      · rcases hr with ⟨c, rfl, hc⟩ | ⟨l, c, hw, hL, hc, rfl⟩
        · -- d' is one separator, so d is empty
          have hdn : d = [] := by
            cases d with
            | nil => rfl
            | cons y ys =>
              have := congrArg List.length hd'
              simp at this
          rcases hd with ⟨_, hsn⟩ | ⟨l, h5, _⟩ | hr2
          · rw [hsn] at hs; simp at hs
          · rw [hdn] at h5; simp at h5
          · rw [hdn] at hr2
            rcases hr2 with ⟨c2, h7, _⟩ | ⟨l2, c2, _, _, _, h7⟩ <;> cases h7
        · -- d' is a drive root
          rcases hd with ⟨_, hsn⟩ | ⟨l2, h5, h6, _, h8⟩ | hr2
          · rw [hsn] at hs; simp at hs
          · apply h8
            have hlen := congrArg List.length hd'
            simp at hlen
            match d, hd', hlen with
            | [], _, _ => simp at h5
            | [y], hd', _ =>
              simp at hd'
              cases a' with
              | nil => simp at hd'
              | cons z zs =>
                simp at hd'
                have hz : Spec.Sep win z := hsep z (by rw [hs]; simp)
                obtain ⟨_, e2, _⟩ := hd'
                rw [← e2] at hz
                subst hw
                exact absurd hz (by decide)
            | [y, z], hd', _ =>
              simp at hd'
              obtain ⟨e1, e2, _⟩ := hd'
              exact ⟨l, hw, hL, by rw [← e1, ← e2]⟩
            | y :: z :: v :: w, hd', hlen =>
              simp at hlen
              omega
          · rcases hr2 with ⟨c2, rfl, hc2⟩ | ⟨l2, c2, _, _, _, rfl⟩
            · simp at hd'
              obtain ⟨e1, _⟩ := hd'
              rw [e1] at hL
              rcases hc2 with rfl | ⟨_, rfl⟩ <;> revert hL <;> decide
            · have := congrArg List.length hd'
              simp at this
  rcases List.append_eq_append_iff.mp e with ⟨a, ea, eb⟩ | ⟨a, ea, eb⟩
  · have := key dir seps dir' seps' a ea eb h2 h4 g4
    rw [ea, this, List.append_nil]
  · have := key dir' seps' dir seps a ea eb g2 g4 h4
    rw [ea, this, List.append_nil]

example : (∃ l, (txt "a//b").getLast? = some l ∧ ¬ Spec.Sep false l ∧ txt "///" ≠ [] ∧
    ¬ IsDrive false (txt "a//b")) := by
  refine ⟨98, by decide +kernel, by decide, by decide +kernel, ?_⟩
  rintro ⟨l, h, _⟩
  cases h

/-- Splitting off the extension: nothing is lost; the extension is the text from the last dot of the
last name on, unless that dot is the first byte of the name or missing, and then it is empty. -/
theorem C24_ext (win : Bool) (path : List Byte) :
    ∃ root ext, splitExt win path = some (root, ext) ∧ path = root ++ ext ∧
      ((∃ e, ext = dot :: e ∧ (∀ c ∈ e, c ≠ dot ∧ ¬ Spec.Sep win c) ∧
          ∃ l, root.getLast? = some l ∧ ¬ Spec.Sep win l) ∨
       (ext = [] ∧ ∀ r e, path = r ++ dot :: e → (∀ c ∈ e, c ≠ dot ∧ ¬ Spec.Sep win c) →
          OpenEnd win r)) := by
  have hdotsep : ¬ Spec.Sep win dot := by cases win <;> decide
  -- the last name
  obtain ⟨pre, last, hpl, hlast, hpre, hgoal⟩ : ∃ pre last, path = pre ++ last ∧
      (∀ c ∈ last, ¬ Spec.Sep win c) ∧ OpenEnd win pre ∧
      splitExt win path =
        match Str.rfindByte (fun c => c == dot) last with
        | none => none
        | some dotPos =>
          let dotPos :=
            match dotPos with
            | .ofNat (i + 1) => i + 1
            | _ => last.length
          some (path.take (path.length - (last.length - dotPos)), last.drop dotPos) := by
    unfold splitExt
    rcases rfindByte_cases (isSep win) path with ⟨e1, e2⟩ | ⟨A, c, B, e1, e2, e3, e4⟩
    · exact ⟨[], path, rfl, fun x hx => (not_isSep_iff win x).mp (e2 x hx), trivial, by rw [e1]; rfl⟩
    · refine ⟨A ++ [c], B, by rw [e1]; simp, fun x hx => (not_isSep_iff win x).mp (e2 x hx), ?_, ?_⟩
      · rw [openEnd_last (l := c) (by simp)]
        exact (isSep_iff win c).mp e3
      · rw [e4]
        dsimp only
        rw [show path.drop (A.length + 1) = B by
          rw [e1, show A ++ c :: B = (A ++ [c]) ++ B by simp, List.drop_left' (by simp)]]
        rfl
  rw [hgoal]
  -- every dotted ending of the path is one of the last name
  have hend : ∀ r e, path = r ++ dot :: e → (∀ c ∈ e, c ≠ dot ∧ ¬ Spec.Sep win c) →
      ∃ q, r = pre ++ q ∧ last = q ++ dot :: e := by
    intro r e hre he
    rw [hpl] at hre
    rcases List.append_eq_append_iff.mp hre with ⟨a, ea, eb⟩ | ⟨a, ea, eb⟩
    · exact ⟨a, ea, eb⟩
    · cases a with
      | nil => exact ⟨[], by simpa using ea.symm, by simpa using eb.symm⟩
      | cons x xs =>
        exfalso
        obtain ⟨l, hl⟩ : ∃ l, pre.getLast? = some l := by
          cases hl : pre.getLast? with
          | none =>
            have := List.getLast?_eq_none_iff.mp hl
            rw [this] at ea
            simp at ea
          | some l => exact ⟨l, rfl⟩
        have hls := (openEnd_last hl).mp hpre
        rw [List.cons_append] at eb
        injection eb with eb1 eb2
        rcases List.eq_nil_or_concat xs with rfl | ⟨xs', y, rfl⟩
        · rw [ea] at hl
          simp at hl
          rw [← hl, ← eb1] at hls
          exact hdotsep hls
        · rw [ea] at hl
          rw [List.concat_eq_append, show r ++ x :: (xs' ++ [y]) = (r ++ x :: xs') ++ [y] by simp,
            List.getLast?_concat] at hl
          injection hl with hl
          have := (he y (by rw [eb2, List.concat_eq_append]; simp)).2
          rw [hl] at this
          exact this hls
  rcases rfindByte_cases (fun c => c == dot) last with ⟨e1, e2⟩ | ⟨A, c, B, e1, e2, e3, e4⟩
  · rw [e1]
    refine ⟨path, [], ?_, by simp, Or.inr ⟨rfl, ?_⟩⟩
    · simp
    · intro r e hre he
      obtain ⟨q, _, hq⟩ := hend r e hre he
      have := e2 dot (by rw [hq]; simp)
      simp at this
  · rw [e4]
    have hcd : c = dot := by simpa using e3
    subst hcd
    cases hA : A with
    | nil =>
      refine ⟨path, [], ?_, by simp, Or.inr ⟨rfl, ?_⟩⟩
      · simp
      · intro r e hre he
        obtain ⟨q, hr, hq⟩ := hend r e hre he
        rw [e1, hA] at hq
        cases q with
        | nil => rw [hr, List.append_nil]; exact hpre
        | cons y ys =>
          exfalso
          rw [List.nil_append, List.cons_append] at hq
          injection hq with _ hq
          have := e2 dot (by rw [hq]; simp)
          simp at this
    | cons a as =>
      rw [hA] at e1
      have hlen : last.length = as.length + 1 + (B.length + 1) := by rw [e1]; simp; omega
      have hplen : path.length = pre.length + last.length := by rw [hpl]; simp
      refine ⟨pre ++ a :: as, dot :: B, ?_, ?_, Or.inl ⟨B, rfl, ?_, ?_⟩⟩
      · show some (path.take (path.length - (last.length - (as.length + 1))),
          last.drop (as.length + 1)) = _
        rw [show path.length - (last.length - (as.length + 1)) = (pre ++ a :: as).length by
          simp; omega]
        rw [hpl, e1, ← List.append_assoc, List.take_left' rfl,
          List.drop_left' (by simp)]
      · rw [hpl, e1]; simp
      · intro x hx
        exact ⟨by simpa using e2 x hx, hlast x (by rw [e1]; simp [hx])⟩
      · obtain ⟨xs, y, hxy⟩ : ∃ xs y, a :: as = xs ++ [y] :=
          ⟨(a :: as).dropLast, (a :: as).getLast (by simp), (List.dropLast_concat_getLast (by simp)).symm⟩
        refine ⟨y, by rw [hxy]; simp, hlast y ?_⟩
        rw [e1, hxy]; simp

example : splitExt false (txt "a.b/c.tar.gz") = some (txt "a.b/c.tar", txt ".gz") ∧
    splitExt false (txt "a.b/.git") = some (txt "a.b/.git", []) ∧
    splitExt true (txt "a.b\\c") = some (txt "a.b\\c", []) := by decide +kernel

/-! ## All components -/

theorem splitFullLoop_eq (win : Bool) (fuel : Nat) (c : Byte) (cs : List Byte) (hc : ¬ Spec.Sep win c)
    (hf : (c :: cs).length < fuel) :
    splitFullLoop win fuel (c :: cs) =
      some (names win (c :: cs) ++ if OpenEnd win (c :: cs) then [[]] else []) := by
  induction fuel generalizing c cs with
  | zero => omega
  | succ fuel ih =>
    rw [splitFullLoop, if_neg (by rw [(not_isSep_iff win c).mpr hc]; simp)]
    dsimp only
    rcases findByte_cases (isSep win) 0 (c :: cs) with ⟨e1, e2⟩ | ⟨A, s, B, e1, e2, e3, e4⟩
    · rw [e1]
      dsimp only
      rw [List.drop_zero] at e2
      have hname : IsName win (c :: cs) := ⟨by simp, fun x hx => (not_isSep_iff win x).mp (e2 x hx)⟩
      rw [names_single hname.1 hname.2, if_neg (not_openEnd (getLast_name hname))]
      rfl
    · rw [e4]
      dsimp only
      rw [List.drop_zero] at e1
      have hs := (isSep_iff win s).mp e3
      have hA : ∀ x ∈ A, ¬ Spec.Sep win x := fun x hx => (not_isSep_iff win x).mp (e2 x hx)
      have hAne : A ≠ [] := by
        rintro rfl
        injection e1 with e1 _
        rw [e1] at hc
        exact hc hs
      have htk : (c :: cs).take (0 + A.length) = A := by rw [e1, Nat.zero_add, List.take_left' rfl]
      have hdr : (c :: cs).drop (0 + A.length) = s :: B := by
        rw [e1, Nat.zero_add, List.drop_left' rfl]
      rw [htk, hdr]
      have hn : names win (c :: cs) = A :: names win B := by rw [e1, names_append hAne hA hs]
      rcases findByte_cases (fun c => !isSep win c) 0 (s :: B) with ⟨f1, f2⟩ | ⟨A2, x, B2, f1, f2, f3, f4⟩
      · rw [f1]
        dsimp only
        rw [List.drop_zero] at f2
        have hsB : ∀ y ∈ s :: B, Spec.Sep win y :=
          fun y hy => (isSep_iff win y).mp (by simpa using f2 y hy)
        rw [hn, names_of_seps (fun y hy => hsB y (List.mem_cons_of_mem _ hy)), if_pos]
        · rfl
        · obtain ⟨l, hl⟩ : ∃ l, (s :: B).getLast? = some l := by
            cases hl : (s :: B).getLast? with
            | none => exact absurd (List.getLast?_eq_none_iff.mp hl) (by simp)
            | some l => exact ⟨l, rfl⟩
          rw [openEnd_last (l := l) (by rw [e1, List.getLast?_append, hl]; rfl)]
          exact hsB l (List.mem_of_getLast? hl)
      · rw [f4]
        dsimp only
        rw [List.drop_zero] at f1
        have hx : ¬ Spec.Sep win x := (not_isSep_iff win x).mp (by simpa using f3)
        have hdr2 : (s :: B).drop (0 + A2.length) = x :: B2 := by
          rw [f1, Nat.zero_add, List.drop_left' rfl]
        have hA2 : ∀ y ∈ A2, Spec.Sep win y :=
          fun y hy => (isSep_iff win y).mp (by simpa using f2 y hy)
        have hl1 := congrArg List.length e1
        have hl2 := congrArg List.length f1
        have hl3 := List.length_pos_iff.mpr hAne
        simp only [List.length_cons, List.length_append] at hl1 hl2 hf
        rw [hdr2, ih x B2 hx (by simp only [List.length_cons]; omega)]
        have hnB : names win (s :: B) = names win (x :: B2) := by rw [f1, names_seps hA2]
        rw [names_sep hs] at hnB
        have hopen : OpenEnd win (c :: cs) ↔ OpenEnd win (x :: B2) := by
          obtain ⟨l, hl⟩ : ∃ l, (x :: B2).getLast? = some l := by
            cases hl : (x :: B2).getLast? with
            | none => exact absurd (List.getLast?_eq_none_iff.mp hl) (by simp)
            | some l => exact ⟨l, rfl⟩
          rw [openEnd_last hl, openEnd_last (l := l)]
          rw [e1, f1, ← List.append_assoc, List.getLast?_append, hl]; rfl
        rw [hn, hnB]
        by_cases ho : OpenEnd win (x :: B2)
        · rw [if_pos ho, if_pos (hopen.mpr ho)]; rfl
        · rw [if_neg ho, if_neg (fun z => ho (hopen.mp z))]; rfl

/-- The part of `splitFull` before its loop. -/
theorem splitFull_eq (win : Bool) (path : List Byte) (pre : List (List Byte)) (rest : List Byte)
    (h : splitHead win path = (pre, rest)) :
    splitFull win path = if rest = [] then some pre
        else (splitFullLoop win (rest.length + 1) rest).map (pre ++ ·) := by
  unfold splitFull
  rw [h]

/-- What stands in front of the names: a root, a drive, or nothing. -/
def IsPrefix (win : Bool) (pre : List (List Byte)) : Prop :=
  pre = [] ∨ ∃ d, pre = [d] ∧ (IsRoot win d ∨ IsDrive win d)

theorem dropWhile_sep (win : Bool) (x : List Byte) :
    ∃ seps, x = seps ++ x.dropWhile (isSep win) ∧ (∀ c ∈ seps, Spec.Sep win c) ∧
      (x.dropWhile (isSep win) = [] ∨ ∃ c cs, x.dropWhile (isSep win) = c :: cs ∧ ¬ Spec.Sep win c) := by
  induction x with
  | nil => exact ⟨[], rfl, by simp, Or.inl rfl⟩
  | cons c cs ih =>
    by_cases hc : isSep win c = true
    · obtain ⟨seps, h1, h2, h3⟩ := ih
      rw [List.dropWhile_cons, if_pos hc]
      refine ⟨c :: seps, by rw [List.cons_append, ← h1], ?_, h3⟩
      intro y hy
      rcases List.mem_cons.mp hy with rfl | hy
      · exact (isSep_iff win _).mp hc
      · exact h2 y hy
    · rw [List.dropWhile_cons, if_neg hc]
      exact ⟨[], rfl, by simp, Or.inr ⟨c, cs, rfl, fun h => hc ((isSep_iff win c).mpr h)⟩⟩

/-- Splitting into all components never fails an assertion.  The path is a root or drive or nothing,
then separators, then a rest; the components are that root or drive and the names in the rest, with
an empty component at the end exactly when a non-empty rest ends with a separator. -/
theorem C24_splitFull (win : Bool) (path : List Byte) :
    ∃ pre seps rest, IsPrefix win pre ∧ path = pre.flatten ++ seps ++ rest ∧
      (∀ c ∈ seps, Spec.Sep win c) ∧ (pre = [] → seps = []) ∧
      (∀ c cs, rest = c :: cs → ¬ Spec.Sep win c) ∧
      ((parse win path).1 ≠ none → pre ≠ []) ∧
      splitFull win path =
        some (pre ++ names win rest ++ if rest ≠ [] ∧ OpenEnd win rest then [[]] else []) := by
  -- the two parts
  obtain ⟨pre, seps, rest, h1, h2, h3, h4, h5, h6, h7⟩ : ∃ pre seps rest, IsPrefix win pre ∧
      path = pre.flatten ++ seps ++ rest ∧ (∀ c ∈ seps, Spec.Sep win c) ∧ (pre = [] → seps = []) ∧
      (∀ c cs, rest = c :: cs → ¬ Spec.Sep win c) ∧ ((parse win path).1 ≠ none → pre ≠ []) ∧
      splitFull win path = if rest = [] then some pre
        else (splitFullLoop win (rest.length + 1) rest).map (pre ++ ·) := by
    rcases parse_cases win path with ⟨l, r, hw, hp, hL, ha, hb, hpp⟩ | ⟨l, r, hw, hp, hL, ha, hb, hpp⟩ |
      ⟨hw, ha, hb, hpp⟩ | ⟨ha, hb, hpp⟩
    · -- drive root
      subst hw
      obtain ⟨s, r', hr⟩ : ∃ s r', r = s :: r' := by
        cases r with
        | nil => rw [hp] at hb; simp [isAbsolute] at hb
        | cons s r' => exact ⟨s, r', rfl⟩
      have hs : Spec.Sep true s := by
        rw [hp, hr] at hb
        simp only [isAbsolute, ↓reduceIte, Bool.and_eq_true] at hb
        exact (isSep_iff true s).mp hb.2
      obtain ⟨seps, e1, e2, e3⟩ := dropWhile_sep true r'
      refine ⟨[[l, 58, s]], seps, r'.dropWhile (isSep true),
        Or.inr ⟨_, rfl, Or.inl (Or.inr ⟨l, s, rfl, hL, hs, rfl⟩)⟩, ?_, e2, by simp, ?_, by simp, ?_⟩
      · rw [hp, hr]
        simp only [List.flatten_cons, List.flatten_nil, List.append_nil, List.append_assoc]
        rw [← e1]; rfl
      · intro c cs hc
        rcases e3 with e3 | ⟨c', cs', e3, e4⟩
        · rw [e3] at hc; cases hc
        · rw [e3] at hc; cases hc; exact e4
      · apply splitFull_eq; unfold splitHead
        rw [if_pos ha, if_pos hb, hp, hr]
        rfl
    · subst hw
      refine ⟨[[l, 58]], [], r, Or.inr ⟨_, rfl, Or.inr ⟨l, rfl, hL, rfl⟩⟩, by rw [hp]; simp, by simp,
        by simp, ?_, by simp, ?_⟩
      · intro c cs hc hs
        rw [hp, hc] at hb ha
        simp only [isAbsolute, ↓reduceIte, ha, Bool.true_and] at hb
        rw [(isSep_iff true c).mpr hs] at hb
        cases hb
      · apply splitFull_eq; unfold splitHead
        rw [if_pos ha, if_neg (by rw [hb]; simp), hp]
        rfl
    · subst hw
      obtain ⟨c, cs, hp⟩ : ∃ c cs, path = c :: cs := by
        cases path with
        | nil => cases hb
        | cons c cs => exact ⟨c, cs, rfl⟩
      have hc : isSep false c = true := by rw [hp] at hb; exact hb
      obtain ⟨seps, e1, e2, e3⟩ := dropWhile_sep false cs
      refine ⟨[[c]], seps, cs.dropWhile (isSep false),
        Or.inr ⟨_, rfl, Or.inl (Or.inl ⟨c, rfl, (isSep_iff false c).mp hc⟩)⟩, ?_, e2, by simp, ?_,
        by simp, ?_⟩
      · rw [hp]
        simp only [List.flatten_cons, List.flatten_nil, List.append_nil, List.append_assoc]
        rw [← e1]; rfl
      · intro y ys hy
        rcases e3 with e3 | ⟨c', cs', e3, e4⟩
        · rw [e3] at hy; cases hy
        · rw [e3] at hy; cases hy; exact e4
      · apply splitFull_eq; unfold splitHead
        rw [if_neg (by rw [ha]; simp), hp]
        dsimp only
        rw [if_pos hc]
    · cases hp : path with
      | nil =>
        refine ⟨[], [], [], Or.inl rfl, rfl, by simp, by simp, by simp, ?_, ?_⟩
        · rw [← hp, hpp]; simp
        · cases win <;> rfl
      | cons c cs =>
        by_cases hc : isSep win c = true
        · obtain ⟨seps, e1, e2, e3⟩ := dropWhile_sep win cs
          refine ⟨[[c]], seps, cs.dropWhile (isSep win),
            Or.inr ⟨_, rfl, Or.inl (Or.inl ⟨c, rfl, (isSep_iff win c).mp hc⟩)⟩, ?_, e2, by simp, ?_,
            by simp, ?_⟩
          · simp only [List.flatten_cons, List.flatten_nil, List.append_nil, List.append_assoc]
            rw [← e1]; rfl
          · intro y ys hy
            rcases e3 with e3 | ⟨c', cs', e3, e4⟩
            · rw [e3] at hy; cases hy
            · rw [e3] at hy; cases hy; exact e4
          · rw [hp] at ha
            apply splitFull_eq; unfold splitHead
            rw [if_neg (by rw [ha]; simp)]
            dsimp only
            rw [if_pos hc]
        · refine ⟨[], [], c :: cs, Or.inl rfl, rfl, by simp, by simp, ?_, ?_, ?_⟩
          · intro y ys hy
            cases hy
            exact fun h => hc ((isSep_iff win c).mpr h)
          · rw [← hp, hpp]; simp
          · rw [hp] at ha
            apply splitFull_eq; unfold splitHead
            rw [if_neg (by rw [ha]; simp)]
            dsimp only
            rw [if_neg hc]
  refine ⟨pre, seps, rest, h1, h2, h3, h4, h5, h6, ?_⟩
  rw [h7]
  cases hr : rest with
  | nil => simp [names_nil]
  | cons c cs =>
    rw [if_neg (by simp), splitFullLoop_eq win _ c cs (h5 c cs hr) (by simp)]
    simp

example : splitFull false (txt "//a///b/") = some [txt "/", txt "a", txt "b", []] ∧
    splitFull true (txt "C:\\\\a") = some [txt "C:\\", txt "a"] ∧
    splitFull true (txt "C:a/b") = some [txt "C:", txt "a", txt "b"] := by decide +kernel

/-- Splitting fully and joining again keeps the meaning (on POSIX always; on Windows if no name looks
like a drive). -/
theorem C24_splitFull_meaning (win : Bool) (path : List Byte) (h : NoDrive win [path])
    (comps : List (List Byte)) (hc : splitFull win path = some comps) (hd : ∀ c, (parse win path).1 ≠ some (.drive c)) :
    meaning win comps = meaning win [path] := by
  obtain ⟨pre, seps, rest, h1, h2, h3, h4, h5, h6, h7⟩ := C24_splitFull win path
  rw [hc] at h7
  injection h7 with h7
  have hnp := h path (by simp)
  have hgen : ∀ acc : Anchor × List (List Byte), ∀ ns : List (List Byte), (∀ n ∈ ns, Fine win n) →
      ∀ tl : List (List Byte), (tl = [] ∨ tl = [[]]) →
      gather win acc (ns ++ tl) = (acc.1, acc.2 ++ ns) := by
    intro acc ns hns tl htl
    rw [gather_plain]
    · congr 2
      rw [List.flatMap_append]
      have e1 : ns.flatMap (names win) = ns := by
        clear hnp h7
        induction ns with
        | nil => rfl
        | cons n ns ih =>
          have := (hns n List.mem_cons_self).1
          rw [List.flatMap_cons, names_single this.1 this.2, ih (fun m hm => hns m (List.mem_cons_of_mem _ hm))]
          rfl
      have e2 : tl.flatMap (names win) = [] := by
        rcases htl with rfl | rfl
        · rfl
        · simp [names_nil]
      rw [e1, e2, List.append_nil]
    · intro p hp
      rw [List.mem_append] at hp
      rcases hp with hp | hp
      · exact (hns p hp).2
      · rcases htl with rfl | rfl
        · cases hp
        · rw [List.mem_singleton] at hp
          subst hp
          unfold Plain
          cases win <;> rfl
  have htl : ∀ P : Prop, [Decidable P] → ((if P then [[]] else [] : List (List Byte)) = [] ∨
      (if P then [[]] else [] : List (List Byte)) = [[]]) := by
    intro P _
    by_cases hP : P
    · exact Or.inr (if_pos hP)
    · exact Or.inl (if_neg hP)
  suffices hs : gather win (.here, []) comps = gather win (.here, []) [path] by
    rw [meaning_gather, meaning_gather, hs]
  have hsing : ∀ acc, gather win acc [path] = match parse win path with
      | (some a, rest) => (a, names win rest)
      | (none, rest) => (acc.1, acc.2 ++ names win rest) := by
    intro acc; simp only [gather]; rfl
  rw [hsing, h7]
  have hrestfine : ∀ n ∈ names win rest, n ∈ names win (parse win path).2 := by
    intro n hn
    rcases parse_cases win path with ⟨l, r, hw, hp, hL, ha, hb, hpp⟩ | ⟨l, r, hw, hp, hL, ha, hb, hpp⟩ |
      ⟨hw, ha, hb, hpp⟩ | ⟨ha, hb, hpp⟩
    all_goals
      rw [hpp]
      dsimp only
      first
        | (rw [h2, List.append_assoc]
           rcases h1 with rfl | ⟨d, rfl, (⟨c, rfl, hcs⟩ | ⟨l, c, hw, hL, hcs, rfl⟩) | ⟨l, hw, hL, rfl⟩⟩
           · rw [h4 rfl]; exact hn
           · simp only [List.flatten_cons, List.flatten_nil, List.append_nil]
             rw [List.cons_append, names_sep hcs, List.nil_append, names_seps h3]; exact hn
           · rw [h2] at ha
             simp [hasDriveLetter, (letter_iff l).mpr hL, hw] at ha
           · rw [h2] at ha
             simp [hasDriveLetter, (letter_iff l).mpr hL, hw] at ha)
        | (have hne := h6 (by rw [hpp]; simp)
           rcases h1 with rfl | ⟨d, rfl, (⟨c, rfl, hcs⟩ | ⟨l', c, hw', hL', hcs, rfl⟩) | ⟨l', hw', hL', rfl⟩⟩
           · exact absurd rfl hne
           · rw [hp] at h2
             simp at h2
             rw [← h2.1] at hcs
             exact absurd hL (by rcases hcs with rfl | ⟨_, rfl⟩ <;> decide)
           · rw [hp] at h2
             simp at h2
             rw [h2.2, names_sep hcs, names_seps h3]; exact hn
           · rw [hp] at h2
             simp at h2
             rw [h2.2, names_seps h3]; exact hn)
  have hfine : ∀ n ∈ names win rest, Fine win n := fun n hn =>
    ⟨names_isName win rest n hn, hnp n (hrestfine n hn)⟩
  rcases parse_cases win path with ⟨l, r, hw, hp, hL, ha, hb, hpp⟩ | ⟨l, r, hw, hp, hL, ha, hb, hpp⟩ |
      ⟨hw, ha, hb, hpp⟩ | ⟨ha, hb, hpp⟩
  · rw [hpp]
    dsimp only
    have hne := h6 (by rw [hpp]; simp)
    rcases h1 with rfl | ⟨d, rfl, (⟨c, rfl, hcs⟩ | ⟨l', c, hw', hL', hcs, rfl⟩) | ⟨l', hw', hL', rfl⟩⟩
    · exact absurd rfl hne
    · exfalso
      rw [hp] at h2
      simp at h2
      rw [← h2.1] at hcs
      rcases hcs with rfl | ⟨_, rfl⟩ <;> revert hL <;> decide
    · rw [hp] at h2
      simp at h2
      subst hw
      rw [List.append_assoc, List.singleton_append, gather]
      have : parse true [l', 58, c] = (some (.driveRoot l'), [c]) := by simp [parse, hL', hcs]
      rw [this]
      dsimp only
      rw [hgen _ _ hfine _ (htl _), h2.2, names_sep hcs, names_sep hcs, names_seps h3, names_nil, h2.1]
      rfl
    · -- a bare drive in front: then nothing would follow it but separators
      exfalso
      rw [hp] at h2
      simp at h2
      subst hw
      cases hs : seps with
      | nil =>
        rw [hs] at h2
        cases hr : rest with
        | nil =>
          rw [hr] at h2
          rw [hp, h2.2] at hb
          simp [isAbsolute] at hb
        | cons y ys =>
          rw [hr] at h2
          rw [hp, h2.2] at hb
          simp only [isAbsolute, List.nil_append, ↓reduceIte, Bool.and_eq_true] at hb
          exact h5 y ys hr ((isSep_iff true y).mp hb.2)
      | cons y ys =>
        have hspl : splitFull true path = some ([[l, 58, y]] ++ names true rest ++
            if rest ≠ [] ∧ OpenEnd true rest then [[]] else []) := by
          obtain ⟨seps2, e1, e2, e3⟩ := dropWhile_sep true (ys ++ rest)
          have hdw : (ys ++ rest).dropWhile (isSep true) = rest := by
            have hys : ∀ z ∈ ys, Spec.Sep true z := fun z hz => h3 z (by rw [hs]; simp [hz])
            clear hs h2 e1 e2 e3
            induction ys with
            | nil =>
              cases hr : rest with
              | nil => rfl
              | cons z zs =>
                rw [List.nil_append, List.dropWhile_cons,
                  if_neg (by rw [(not_isSep_iff true z).mpr (h5 z zs hr)]; simp)]
            | cons z zs ih =>
              rw [List.cons_append, List.dropWhile_cons,
                if_pos ((isSep_iff true z).mpr (hys z List.mem_cons_self))]
              exact ih (fun w hw => hys w (List.mem_cons_of_mem _ hw))
          rw [splitFull_eq true path [[l, 58, y]] rest (by
            unfold splitHead
            rw [if_pos ha, if_pos hb, hp, h2.2, hs]
            dsimp only [List.cons_append, List.take, List.drop]
            rw [hdw])]
          cases hr : rest with
          | nil => simp [names_nil]
          | cons z zs =>
            rw [if_neg (by simp), splitFullLoop_eq true _ z zs (h5 z zs hr) (by simp)]
            simp
        rw [hc, h7] at hspl
        simp at hspl
  · exact absurd (by rw [hpp]) (hd l)
  · rw [hpp]
    dsimp only
    have hne := h6 (by rw [hpp]; simp)
    subst hw
    rcases h1 with rfl | ⟨d, rfl, (⟨c, rfl, hcs⟩ | ⟨l', c, hw', _, _, _⟩) | ⟨l', hw', _, _⟩⟩
    · exact absurd rfl hne
    · rw [List.append_assoc, List.singleton_append, gather]
      have : parse false [c] = (some .root, [c]) := by simp [parse, hcs]
      rw [this]
      dsimp only
      rw [hgen _ _ hfine _ (htl _), h2]
      simp only [List.flatten_cons, List.flatten_nil, List.append_nil, List.append_assoc]
      rw [List.cons_append, names_sep hcs, names_sep hcs, List.nil_append, names_seps h3, names_nil]
      rfl
    · cases hw'
    · cases hw'
  · rw [hpp]
    dsimp only
    rcases h1 with rfl | ⟨d, rfl, (⟨c, rfl, hcs⟩ | ⟨l', c, hw', hL', hcs, rfl⟩) | ⟨l', hw', hL', rfl⟩⟩
    · rw [List.nil_append, hgen _ _ hfine _ (htl _), h2, h4 rfl]
      rfl
    · have hwin : win = true := by
        cases win with
        | true => rfl
        | false =>
          rw [h2] at hb
          simp [isAbsolute, (isSep_iff false c).mpr hcs] at hb
      subst hwin
      rw [List.append_assoc, List.singleton_append, gather]
      have : parse true [c] = (none, [c]) := by simp [parse]
      rw [this]
      dsimp only
      rw [hgen _ _ hfine _ (htl _), h2]
      simp only [List.flatten_cons, List.flatten_nil, List.append_nil, List.append_assoc]
      rw [List.cons_append, names_sep hcs, names_sep hcs, names_nil]
      show (Anchor.here, names true rest) = (Anchor.here, names true (seps ++ rest))
      rw [names_seps h3]
    · exfalso
      rw [h2] at ha
      simp [hasDriveLetter, (letter_iff l').mpr hL', hw'] at ha
    · exfalso
      rw [h2] at ha
      simp [hasDriveLetter, (letter_iff l').mpr hL', hw'] at ha

example : NoDrive true [txt "C:\\a\\..\\b\\"] ∧
    splitFull true (txt "C:\\a\\..\\b\\") = some [txt "C:\\", txt "a", txt "..", txt "b", []] := by
  decide +kernel

/-! ## C54: converting between formats -/

/-- Converting keeps the length and the names: every separator of the source format becomes the
separator of the target, and nothing else changes. -/
theorem C54_from (win srcWin : Bool) (hne : win ≠ srcWin) (path : List Byte) :
    (convert win srcWin path).length = path.length ∧
    (∀ (i : Nat) c, path[i]? = some c → (Spec.Sep srcWin c → (convert win srcWin path)[i]? = some (sepByte win)) ∧
      (¬ Spec.Sep srcWin c → (convert win srcWin path)[i]? = some c)) ∧
    convert srcWin srcWin path = path := by
  unfold convert
  rw [if_neg hne, if_pos rfl]
  refine ⟨by simp, ?_, rfl⟩
  intro i c hc
  constructor
  · intro hs
    rw [List.getElem?_map, hc, Option.map_some, if_pos ((isSep_iff srcWin c).mpr hs)]
  · intro hs
    rw [List.getElem?_map, hc, Option.map_some, if_neg (by rw [(not_isSep_iff srcWin c).mpr hs]; simp)]

theorem names_map {win srcWin : Bool} (f : Byte → Byte)
    (h1 : ∀ c, Spec.Sep srcWin c → Spec.Sep win (f c)) (p : List Byte)
    (h2 : ∀ c ∈ p, ¬ Spec.Sep srcWin c → f c = c ∧ ¬ Spec.Sep win c) :
    fields win (p.map f) = fields srcWin p := by
  induction p with
  | nil => rfl
  | cons c cs ih =>
    have ih := ih (fun x hx => h2 x (List.mem_cons_of_mem _ hx))
    rw [List.map_cons, fields, fields]
    by_cases hc : Spec.Sep srcWin c
    · rw [if_pos hc, if_pos (h1 c hc), ih]
    · obtain ⟨e1, e2⟩ := h2 c List.mem_cons_self hc
      rw [if_neg hc, e1, if_neg e2, ih]

/-- From Windows to POSIX the names are kept exactly; from POSIX to Windows they are kept exactly when
no name contains a backslash. -/
theorem C54_names (path : List Byte) :
    names false (convert false true path) = names true path ∧
    ((∀ c ∈ path, c ≠ 92) → names true (convert true false path) = names false path) := by
  constructor
  · unfold convert names
    rw [if_neg (by simp), names_map (srcWin := true)]
    · intro c hc
      rw [if_pos ((isSep_iff true c).mpr hc)]
      decide
    · intro c _ hc
      rw [if_neg (by rw [(not_isSep_iff true c).mpr hc]; simp)]
      refine ⟨rfl, ?_⟩
      intro hs
      apply hc
      rcases hs with rfl | ⟨h, _⟩
      · exact Or.inl rfl
      · cases h
  · intro hb
    unfold convert names
    rw [if_neg (by simp), names_map (srcWin := false)]
    · intro c hc
      rw [if_pos ((isSep_iff false c).mpr hc)]
      decide
    · intro c hcm hc
      rw [if_neg (by rw [(not_isSep_iff false c).mpr hc]; simp)]
      refine ⟨rfl, ?_⟩
      rintro (rfl | ⟨_, rfl⟩)
      · exact hc (Or.inl rfl)
      · exact hb _ hcm rfl

example : convert false true (txt "C:\\a/b") = txt "C:/a/b" ∧ convert true false (txt "a/b") = txt "a\\b" := by
  decide +kernel

/-- A backslash in a POSIX name becomes a separator. -/
theorem C54_backslash :
    names false (txt "a\\b/c") = [txt "a\\b", txt "c"] ∧
    names true (convert true false (txt "a\\b/c")) = [txt "a", txt "b", txt "c"] := by
  decide +kernel

end Verif.Path

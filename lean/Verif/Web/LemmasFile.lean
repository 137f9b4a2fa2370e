import Verif.Web.Model
import Verif.Web.Spec
import Verif.Path.Props
import Verif.Path.PropsB
import Verif.Str.Props
/-!
# Lemmas about the files requests name
-/
namespace Verif.Web
open Verif Spec Verif.Path.Spec

/-! ## Following a relative path from a directory -/

theorem step_mono (ns : List (List Byte)) (l : Loc) : l.ups ≤ (ns.foldl Loc.step l).ups := by
  induction ns generalizing l with
  | nil => exact Nat.le_refl _
  | cons n ns ih =>
    refine Nat.le_trans ?_ (ih (l.step n))
    unfold Loc.step
    split
    · split
      · exact Nat.le_refl _
      · split
        · exact Nat.le_refl _
        · exact Nat.le_succ _
    · split <;> exact Nat.le_refl _

theorem step_anchor (ns : List (List Byte)) (l : Loc) : (ns.foldl Loc.step l).anchor = l.anchor := by
  induction ns generalizing l with
  | nil => rfl
  | cons n ns ih =>
    rw [List.foldl_cons, ih]
    unfold Loc.step
    split
    · split
      · rfl
      · split <;> rfl
    · split <;> rfl

/-- Walking along names inside a directory `R` deep enough. -/
theorem climb (a : Anchor) (v : Nat) (R : List (List Byte)) (ns : List (List Byte)) (u : Nat)
    (d : List (List Byte)) (u' : Nat) (d' : List (List Byte))
    (h : ns.foldl Loc.step ⟨.here, u, d⟩ = ⟨.here, u', d'⟩) (hu : u' ≤ R.length) :
    ns.foldl stepT (⟨a, v, R.take (R.length - u) ++ d⟩, true) =
      (⟨a, v, R.take (R.length - u') ++ d'⟩, true) := by
  induction ns generalizing u d with
  | nil => cases h; rfl
  | cons n ns ih =>
    rw [List.foldl_cons] at h ⊢
    by_cases h1 : n = [46, 46]
    · subst h1
      by_cases hd : d = []
      · subst hd
        have e1 : Loc.step ⟨.here, u, []⟩ [46, 46] = ⟨.here, u + 1, []⟩ := by
          simp [Loc.step, Anchor.isRoot]
        rw [e1] at h
        have hm := step_mono ns ⟨.here, u + 1, []⟩
        rw [h] at hm
        dsimp only at hm
        have e2 : stepT (⟨a, v, R.take (R.length - u) ++ []⟩, true) [46, 46] =
            (⟨a, v, R.take (R.length - (u + 1)) ++ []⟩, true) := by
          have hne : R.take (R.length - u) ≠ [] := by
            intro e
            have := congrArg List.length e
            simp only [List.length_take, List.length_nil] at this
            omega
          have hdl : (R.take (R.length - u)).dropLast = R.take (R.length - (u + 1)) := by
            rw [List.dropLast_eq_take, List.take_take, List.length_take]
            congr 1
            omega
          simp only [stepT, okStep, Loc.step, List.append_nil, hne, ne_eq, not_false_eq_true,
            ↓reduceIte, hdl]
          simp [hne]
        rw [e2]
        exact ih _ _ h
      · have e1 : Loc.step ⟨.here, u, d⟩ [46, 46] = ⟨.here, u, d.dropLast⟩ := by
          simp [Loc.step, hd]
        rw [e1] at h
        have e2 : stepT (⟨a, v, R.take (R.length - u) ++ d⟩, true) [46, 46] =
            (⟨a, v, R.take (R.length - u) ++ d.dropLast⟩, true) := by
          simp [stepT, okStep, Loc.step, hd, List.dropLast_append_of_ne_nil]
        rw [e2]
        exact ih _ _ h
    · by_cases h2 : n = [46]
      · subst h2
        have e1 : Loc.step ⟨.here, u, d⟩ [46] = ⟨.here, u, d⟩ := by simp [Loc.step]
        rw [e1] at h
        have e2 : stepT (⟨a, v, R.take (R.length - u) ++ d⟩, true) [46] =
            (⟨a, v, R.take (R.length - u) ++ d⟩, true) := by simp [stepT, okStep, Loc.step]
        rw [e2]
        exact ih _ _ h
      · have e1 : Loc.step ⟨.here, u, d⟩ n = ⟨.here, u, d ++ [n]⟩ := by simp [Loc.step, h1, h2]
        rw [e1] at h
        have e2 : stepT (⟨a, v, R.take (R.length - u) ++ d⟩, true) n =
            (⟨a, v, R.take (R.length - u) ++ (d ++ [n])⟩, true) := by
          simp [stepT, okStep, Loc.step, h1, h2]
        rw [e2]
        exact ih _ _ h

/-- Joining a relative path to a directory, if it does not climb out of the names of the
directory. -/
theorem join_below (win : Bool) (root rel : List Byte) (hnd : NoDrive win [root, rel])
    (hp : (parse win rel).1 = none) (ht : tame win [root] = true)
    (hdr : ∀ c, (meaning win [root]).anchor ≠ .drive c) (hu : (meaning win [rel]).ups ≤ (meaning win [root]).down.length) :
    ∃ p, Path.joinAndNormalize win [root, rel] = some p ∧
      meaning win [p] = ⟨(meaning win [root]).anchor, (meaning win [root]).ups,
        (meaning win [root]).down.take ((meaning win [root]).down.length - (meaning win [rel]).ups) ++
          (meaning win [rel]).down⟩ := by
  have hpp := (show Path.Plain win rel from hp).parse.2.2
  obtain ⟨p, h1, h2⟩ := Path.C22_meaning_partial win [root, rel] rel rfl hnd
  refine ⟨p, h1, ?_⟩
  have hrelm : meaning win [rel] = (names win rel).foldl Loc.step ⟨.here, 0, []⟩ := by
    show follow win _ rel = _
    unfold follow
    rw [hpp]
  have hanc : (meaning win [rel]).anchor = .here := by rw [hrelm, step_anchor]
  have hfst := Path.followT_fst win [root] (⟨.here, 0, []⟩, true)
  have hroot : followT win (⟨.here, 0, []⟩, true) root = (meaning win [root], true) := by
    have e1 : (followT win (⟨.here, 0, []⟩, true) root).1 = meaning win [root] := hfst
    have e2 : (followT win (⟨.here, 0, []⟩, true) root).2 = true := ht
    exact Prod.ext e1 e2
  generalize hR : meaning win [root] = M at *
  obtain ⟨a, v, R⟩ := M
  generalize hD : meaning win [rel] = D at *
  obtain ⟨a', u, d⟩ := D
  dsimp only at *
  subst hanc
  have hc := climb a v R (names win rel) 0 [] u d hrelm.symm hu
  rw [List.append_nil, Nat.sub_zero, List.take_length] at hc
  have hfull : followT win (followT win (⟨.here, 0, []⟩, true) root) rel =
      (⟨a, v, R.take (R.length - u) ++ d⟩, true) := by
    rw [hroot, followT.eq_def, hpp]
    exact hc
  have htame : tame win [root, rel] = true := by
    show (followT win (followT win (⟨.here, 0, []⟩, true) root) rel).2 = true
    rw [hfull]
  have hmean : meaning win [root, rel] = ⟨a, v, R.take (R.length - u) ++ d⟩ := by
    have := Path.followT_fst win [root, rel] (⟨.here, 0, []⟩, true)
    have e : (followT win (followT win (⟨.here, 0, []⟩, true) root) rel).1 = meaning win [root, rel] := this
    rw [hfull] at e
    exact e.symm
  rw [← hmean]
  refine h2.mpr ⟨htame, fun c hc => ?_⟩
  rw [hmean] at hc
  exact absurd hc (hdr c)

/-- Normalising a relative path. -/
theorem norm_rel (win : Bool) (p : List Byte) (hnd : NoDrive win [p]) (hp : (parse win p).1 = none) :
    ∃ norm, Path.joinAndNormalize win [p] = some norm ∧ (parse win norm).1 = none ∧
      NoDrive win [norm] ∧ (meaning win [norm]).ups ≤ 1 ∧
      ((meaning win [p]).ups ≤ 1 → meaning win [norm] = meaning win [p]) := by
  have hpp := (show Path.Plain win p from hp).parse.2.2
  have hanc : (meaning win [p]).anchor = .here := by
    show (follow win _ p).anchor = _
    unfold follow
    rw [hpp]
    exact step_anchor _ _
  obtain ⟨s, h1, h2, h3⟩ := Path.join_cases win [p] hnd
  -- the stack has no anchor
  obtain ⟨u, down, hf, hfm⟩ : ∃ u down, Path.Form win .here u down s ∧
      ((meaning win [p]).ups ≤ 1 → u = ((meaning win [p]).ups == 1) ∧ down = (meaning win [p]).down) := by
    unfold Path.Agree at h2
    split at h2
    · rw [hanc] at h2
      exact ⟨_, _, h2.2, fun _ => ⟨rfl, rfl⟩⟩
    · obtain ⟨⟨u, down, hf⟩, h4⟩ := h2
      refine ⟨u, down, hf, fun hle => ?_⟩
      rcases h4 with h4 | h4
      · exact absurd hanc h4
      · omega
  -- what is read back
  obtain ⟨norm, hn, ns, hg, hns, hfine⟩ : ∃ norm, Path.joinAndNormalize win [p] = some norm ∧
      ∃ ns, Path.gather win (.here, []) [norm] = (.here, ns) ∧
        (ns = Path.upStr u ++ down ∨ (ns = [[46]] ∧ Path.upStr u ++ down = [])) ∧
        ∀ n ∈ ns, Path.Fine win n := by
    rcases h3 with ⟨rfl, h3⟩ | ⟨hs, last, hl, h3⟩
    · refine ⟨_, h3, _, Path.readDot win _ (by split; exact Or.inr rfl; exact Or.inl rfl),
        Or.inr ⟨rfl, ?_⟩, ?_⟩
      · have := hf.eq
        simpa [Path.anchorStr] using this.symm
      · intro n hn
        rw [List.mem_singleton] at hn
        subst hn
        exact ⟨Path.isName_dot win, Path.plain_dot win⟩
    · refine ⟨_, h3, _, Path.readBack hf hs ?_, Or.inl rfl, hf.fine⟩
      split
      · next hc => exact Or.inr ⟨rfl, hc.2⟩
      · exact Or.inl rfl
  have hplain : (parse win norm).1 = none := by
    rw [Path.gather, Path.gather] at hg
    generalize hq : parse win norm = q at *
    obtain ⟨a, r⟩ := q
    cases a with
    | none => rfl
    | some a =>
      dsimp only at hg
      have ha : a = .here := congrArg Prod.fst hg
      subst ha
      rcases Path.parse_cases win norm with ⟨c, r', _, _, _, _, _, e⟩ | ⟨c, r', _, _, _, _, _, e⟩ |
        ⟨_, _, _, e⟩ | ⟨_, _, e⟩ <;> rw [hq] at e <;> cases e
  have hnpp := (show Path.Plain win norm from hplain).parse.2.2
  have hnames : names win norm = ns := by
    rw [Path.gather, Path.gather, hnpp] at hg
    have := congrArg Prod.snd hg
    simpa using this
  have hmean : meaning win [norm] = ⟨.here, if u then 1 else 0, down⟩ := by
    show follow win _ norm = _
    unfold follow
    rw [hnpp]
    dsimp only
    rw [hnames]
    have key : ∀ (ds : List (List Byte)) (l : Loc), (∀ n ∈ ds, n ≠ [46, 46] ∧ n ≠ [46]) →
        ds.foldl Loc.step l = ⟨l.anchor, l.ups, l.down ++ ds⟩ := by
      intro ds
      induction ds with
      | nil => intro l _; simp
      | cons n ds ih =>
        intro l hd
        obtain ⟨g1, g2⟩ := hd n (by simp)
        rw [List.foldl_cons, ih _ (fun m hm => hd m (by simp [hm]))]
        simp [Loc.step, g1, g2]
    have hprop : ∀ n ∈ down, n ≠ [46, 46] ∧ n ≠ [46] :=
      fun n hn => ⟨(hf.proper n hn).2.2.1, (hf.proper n hn).2.1⟩
    rcases hns with rfl | ⟨rfl, he⟩
    · cases u with
      | true =>
        show List.foldl Loc.step _ ([46, 46] :: down) = _
        rw [List.foldl_cons, key _ _ hprop]
        simp [Loc.step, Anchor.isRoot]
      | false =>
        show List.foldl Loc.step _ down = _
        rw [key _ _ hprop]
        simp
    · cases u with
      | true => cases he
      | false =>
        have : down = [] := by simpa [Path.upStr] using he
        subst this
        rfl
  refine ⟨norm, hn, hplain, ?_, ?_, ?_⟩
  · intro q hq m hm
    rw [List.mem_singleton] at hq
    subst hq
    rw [hnpp] at hm
    rw [hnames] at hm
    exact (hfine m hm).2
  · rw [hmean]; cases u <;> simp
  · intro hle
    obtain ⟨g1, g2⟩ := hfm hle
    rw [hmean, g1, g2]
    generalize meaning win [p] = M at *
    obtain ⟨a, v, D⟩ := M
    dsimp only at *
    subst hanc
    congr 1
    by_cases hv : v = 1
    · simp [hv]
    · rw [if_neg (by simpa using hv)]; omega

/-! ## Trimming and the query -/

theorem trim_left (m : Byte → Bool) (s : List Byte) : Str.trim m true false s = s.dropWhile m := by
  simp only [Str.trim, ↓reduceIte, Bool.false_eq_true]
  induction s with
  | nil => rfl
  | cons c s ih =>
    rw [Str.trimLeft, List.dropWhile_cons]
    cases m c with
    | true => simpa using ih
    | false => rfl

theorem cutQuery_eq (req : List Byte) : cutQuery req = beforeQuery req := by
  unfold cutQuery beforeQuery
  rcases Path.findByte_cases (fun c => c == 63) 0 req with ⟨h1, h2⟩ | ⟨A, c, B, h1, h2, h3, h4⟩
  · rw [h1]
    dsimp only
    rw [List.drop_zero] at h2
    induction req with
    | nil => rfl
    | cons c cs ih =>
      have hc := h2 c (by simp)
      rw [List.takeWhile_cons, if_pos (by simpa using hc)]
      congr 1
      apply ih
      · rcases Path.findByte_cases (fun c => c == 63) 0 cs with ⟨g, _⟩ | ⟨A, d, B, g1, _, g3, _⟩
        · exact g
        · rw [List.drop_zero] at g1
          have := h2 d (by rw [g1]; simp)
          simp only [beq_eq_false_iff_ne, ne_eq] at this
          exact absurd (by simpa using g3) this
      · exact fun x hx => h2 x (by simp [hx])
  · rw [h4]
    rw [List.drop_zero] at h1
    subst h1
    have hc : c = 63 := by simpa using h3
    subst hc
    show List.take (0 + A.length) _ = _
    rw [Nat.zero_add, List.take_left]
    clear h3 h4
    induction A with
    | nil => simp
    | cons a A ih =>
      have ha := h2 a (by simp)
      rw [List.cons_append, List.takeWhile_cons, if_pos (by simpa using ha)]
      congr 1
      exact ih (fun x hx => h2 x (by simp [hx]))

theorem posix_plain (s : List Byte) : (parse false (s.dropWhile (fun c => c == 47))).1 = none := by
  induction s with
  | nil => rfl
  | cons c s ih =>
    rw [List.dropWhile_cons]
    by_cases h : c = 47
    · rw [if_pos (by simp [h])]; exact ih
    · rw [if_neg (by simpa using h)]
      simp [parse, Path.Spec.Sep, h]

theorem served_iff (name : List Byte) :
    (∃ k, Str.findByte (fun c => c == 46) 0 name = .ofNat (k + 1) ∧ name.drop (k + 1) ∈ extensions) ↔
      Served name := by
  have hext : ∀ e : List Byte, (46 :: e) ∈ extensions ↔
      e ∈ [[119, 111, 102, 102, 50], [119, 111, 102, 102], [116, 116, 102], [101, 111, 116],
      [112, 110, 103], [99, 115, 115], [115, 118, 103], [(106 : Byte), 115]] := by
    intro e
    simp [extensions]
  rcases Path.findByte_cases (fun c => c == 46) 0 name with ⟨h1, h2⟩ | ⟨A, c, B, h1, h2, h3, h4⟩
  · constructor
    · rintro ⟨k, hk, _⟩; rw [h1] at hk; cases hk
    · rintro ⟨stem, ext, rfl, _⟩
      have := h2 46 (by simp)
      simp at this
  · rw [List.drop_zero] at h1
    subst h1
    have hc : c = 46 := by simpa using h3
    subst hc
    have hA : (46 : Byte) ∉ A := fun hm => by have := h2 46 hm; simp at this
    rw [Nat.zero_add] at h4
    constructor
    · rintro ⟨k, hk, he⟩
      rw [h4] at hk
      have hk' : A.length = k + 1 := Int.ofNat.inj hk
      rw [← hk', List.drop_left, hext] at he
      exact ⟨A, B, rfl, by rintro rfl; simp at hk', hA, he⟩
    · rintro ⟨stem, ext, e, hne, hs, he⟩
      have key : ∀ (X Y P Q : List Byte), 46 ∉ X → 46 ∉ P → X ++ 46 :: Y = P ++ 46 :: Q → X = P ∧ Y = Q := by
        intro X
        induction X with
        | nil =>
          intro Y P Q _ hP e
          cases P with
          | nil => simpa using e
          | cons p P =>
            injection e with e1 e2
            exact absurd (by simp [e1]) hP
        | cons x X ih =>
          intro Y P Q hX hP e
          cases P with
          | nil =>
            injection e with e1 e2
            exact absurd (by simp [e1]) hX
          | cons p P =>
            injection e with e1 e2
            obtain ⟨h, h'⟩ := ih Y P Q (fun hm => hX (by simp [hm])) (fun hm => hP (by simp [hm])) e2
            exact ⟨by rw [e1, h], h'⟩
      obtain ⟨rfl, rfl⟩ := key A B stem ext hA hs e
      obtain ⟨n, hn⟩ : ∃ n, A.length = n + 1 := ⟨A.length - 1, by
        have := List.length_pos_iff.mpr hne; omega⟩
      refine ⟨n, by rw [h4, hn], ?_⟩
      rw [← hn, List.drop_left, hext]
      exact he

/-- What `fetch` loads. -/
theorem fetch_eq (win : Bool) (root req : List Byte) :
    ∃ dir name, Path.split win (beforeQuery req) = some (dir, name) ∧
      (Served name → ∃ p, Path.joinAndNormalize win
          [root, (beforeQuery req).dropWhile (fun c => c == 47)] = some p ∧
        fetch win root req = .load p) ∧
      (¬ Served name → fetch win root req = .notFound) := by
  obtain ⟨dir, seps, name, h1, _⟩ := Path.C24_split win (beforeQuery req)
  refine ⟨dir, name, h1, ?_, ?_⟩
  · intro hs
    obtain ⟨k, hk, he⟩ := (served_iff name).mpr hs
    obtain ⟨p, hp, _⟩ := Path.C22_total win [root, (beforeQuery req).dropWhile (fun c => c == 47)]
    refine ⟨p, hp, ?_⟩
    unfold fetch
    rw [cutQuery_eq]
    dsimp only
    rw [h1]
    dsimp only
    rw [hk]
    dsimp only
    rw [if_pos he, trim_left, hp]
  · intro hs
    unfold fetch
    rw [cutQuery_eq]
    dsimp only
    rw [h1]
    dsimp only
    have hn := fun k hk he => hs ((served_iff name).mp ⟨k, hk, he⟩)
    split
    · rfl
    · rfl
    · next k hk => rw [if_neg (hn k hk)]

end Verif.Web

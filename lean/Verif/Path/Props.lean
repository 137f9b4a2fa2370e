import Verif.Path.LemmasB
/-!
# Properties of paths (C22, C23)

`meaning` (in `Verif.Path.Spec`) is the lexical meaning of paths joined together: an anchor, a number
of directories up from it and the names down from there.
-/
namespace Verif.Path
open Verif Spec

/-- ASCII text as bytes. -/
def txt (s : String) : List Byte := s.toList.map (fun c => UInt8.ofNat c.toNat)

/-! ## C22: joining and normalising -/

/-- Joining never fails an assertion nor reads outside a view, whatever the arguments. -/
theorem C22_total (win : Bool) (ps : List (List Byte)) :
    ∃ out, joinAndNormalize win ps = some out ∧ out ≠ [] := by
  cases hl : ps.getLast? with
  | none =>
    have : ps = [] := List.getLast?_eq_none_iff.mp hl
    subst this
    exact ⟨[dot], by cases win <;> rfl, by simp⟩
  | some last =>
    rw [join_eq (normComps_eq win ps) hl]
    split
    · exact ⟨_, rfl, by simp⟩
    · next hs =>
      refine ⟨_, rfl, ?_⟩
      have hsne : ∀ x ∈ (gather win (Anchor.here, []) ps).2.foldl push
          (anchorStr win (gather win (Anchor.here, []) ps).1), x ≠ [] := by
        have gen : ∀ (ns s : List (List Byte)), (∀ x ∈ s, x ≠ []) → ∀ x ∈ ns.foldl push s, x ≠ [] := by
          intro ns
          induction ns with
          | nil => intro s h; exact h
          | cons n ns ih =>
            intro s h
            apply ih
            intro x hx
            unfold push at hx
            split at hx
            · split at hx
              · rw [List.mem_singleton] at hx; subst hx; simp
              · exact h x ((List.dropLast_subset s) hx)
            · split at hx
              · next hc =>
                rw [List.mem_append, List.mem_singleton] at hx
                rcases hx with hx | rfl
                · exact h x hx
                · exact hc.2
              · exact h x hx
        apply gen
        intro x hx
        cases ha : (gather win (Anchor.here, []) ps).1 <;> rw [ha] at hx <;>
          simp [anchorStr] at hx <;> subst hx <;> simp
      revert hs hsne
      generalize (gather win (Anchor.here, []) ps).2.foldl push
          (anchorStr win (gather win (Anchor.here, []) ps).1) = s
      intro hs hsne
      cases s with
      | nil => exact absurd rfl hs
      | cons n ns =>
        have := hsne n List.mem_cons_self
        simp [writeLoop, this]

example : joinAndNormalize false [txt "a/./b", txt "../c//"] = some (txt "a/c/") := by decide +kernel
example : joinAndNormalize true [txt "a/b", txt "C:/x", txt "y/"] = some (txt "C:\\x\\y\\") := by
  decide +kernel

/-- The exact condition under which joining keeps the meaning, provided no name looks like a drive:
no `..` climbs above a root or above a drive, none climbs two directories above the start, and a path
relative to the current directory of a drive (`C:`) has no names and no trailing separator. -/
theorem C22_meaning_partial (win : Bool) (ps : List (List Byte)) (last : List Byte)
    (hl : ps.getLast? = some last) (h : NoDrive win ps) :
    ∃ out, joinAndNormalize win ps = some out ∧
      (meaning win [out] = meaning win ps ↔
        tame win ps = true ∧ ∀ c, (meaning win ps).anchor = .drive c →
          (meaning win ps).down = [] ∧ ¬ OpenEnd win last) := by
  obtain ⟨s, hs, hag⟩ := normComps_agree win ps h
  rw [join_eq hs hl]
  by_cases hnil : s = []
  · rw [if_pos hnil]
    refine ⟨_, rfl, ?_⟩
    have hm : meaning win [[dot] ++ if last = [] then [sepByte win] else []] = ⟨.here, 0, []⟩ := by
      rw [meaning_gather, readDot win _ (by split; exact Or.inr rfl; exact Or.inl rfl)]
      rfl
    rw [hm]
    cases ht : tame win ps with
    | true =>
      rw [ht] at hag
      obtain ⟨h1, h2⟩ := hag
      have he := h2.eq
      rw [hnil] at he
      have he2 := List.append_eq_nil_iff.mp he.symm
      have he3 := List.append_eq_nil_iff.mp he2.1
      have ha : (meaning win ps).anchor = .here := by
        cases ha : (meaning win ps).anchor with
        | here => rfl
        | _ => rw [ha] at he3; simp [anchorStr] at he3
      have hu : (meaning win ps).ups = 0 := by
        have : ((meaning win ps).ups == 1) = false := by
          cases hb : ((meaning win ps).ups == 1) with
          | false => rfl
          | true => rw [hb] at he3; simp [upStr] at he3
        have : (meaning win ps).ups ≠ 1 := by simpa using this
        omega
      refine ⟨fun _ => ⟨rfl, ?_⟩, fun _ => ?_⟩
      · intro c hc; rw [ha] at hc; cases hc
      · cases hmm : meaning win ps with
        | mk a u d =>
          rw [hmm] at ha hu he2
          dsimp only at ha hu he2
          rw [ha, hu, he2.2]
    | false =>
      rw [ht] at hag
      obtain ⟨_, h2⟩ := hag
      refine ⟨fun e => ?_, fun hh => absurd hh.1 (by simp)⟩
      rw [← e] at h2
      simp at h2
  · rw [if_neg hnil]
    refine ⟨_, rfl, ?_⟩
    generalize ht' : (if OpenEnd win last ∧ (writeLoop win false s).2 = true then [sepByte win] else [])
      = t
    have htt : t = [] ∨ (t = [sepByte win] ∧ (writeLoop win false s).2 = true) := by
      rw [← ht']
      split
      · next hc => exact Or.inr ⟨rfl, hc.2⟩
      · exact Or.inl rfl
    cases ht : tame win ps with
    | true =>
      rw [ht] at hag
      obtain ⟨h1, h2⟩ := hag
      have hua : ((meaning win ps).ups == 1) = true → (meaning win ps).anchor = .here := by
        intro hu
        apply Classical.byContradiction
        intro ha
        rw [h2.up ha] at hu
        cases hu
      have hm : meaning win [(writeLoop win false s).1 ++ t] =
          ⟨settle (meaning win ps).anchor (decide ((meaning win ps).down ≠ [] ∨ t ≠ [])),
            (meaning win ps).ups, (meaning win ps).down⟩ := by
        rw [meaning_gather, readBack h2 hnil htt]
        dsimp only
        rw [fold_form h2 _ (by intro hu; rw [hua hu]; rfl)]
        dsimp only
        congr 1
        by_cases hu : (meaning win ps).ups = 1
        · simp [hu]
        · have : (meaning win ps).ups = 0 := by omega
          simp [this]
      rw [hm]
      cases hmm : meaning win ps with
      | mk a u d =>
        rw [hmm] at h2
        dsimp only at h2 ⊢
        cases a with
        | here => exact ⟨fun _ => ⟨rfl, by simp⟩, fun _ => rfl⟩
        | root => exact ⟨fun _ => ⟨rfl, by simp⟩, fun _ => rfl⟩
        | driveRoot c => exact ⟨fun _ => ⟨rfl, by simp⟩, fun _ => rfl⟩
        | drive c =>
          have hu := h2.up (by simp)
          have hf : (writeLoop win false s).2 = true := by
            obtain ⟨_, hw⟩ := h2.letter c (Or.inl rfl)
            subst hw
            have : s = [c, 58] :: d := by rw [h2.eq, hu]; rfl
            rw [this, writeLoop, show wantsSep true [c, 58] = true by simp [wantsSep, isSep],
              writeLoop_true]
          rw [hf] at ht'
          have hto : t = [] ↔ ¬ OpenEnd win last := by
            rw [← ht']
            by_cases ho : OpenEnd win last
            · simp [ho]
            · simp [ho]
          constructor
          · intro e
            refine ⟨rfl, ?_⟩
            intro _ _
            by_cases hb : d ≠ [] ∨ t ≠ []
            · rw [decide_eq_true hb] at e
              simp [settle] at e
            · rw [← hto]
              refine ⟨Classical.byContradiction fun x => hb (Or.inl x),
                Classical.byContradiction fun x => hb (Or.inr x)⟩
          · rintro ⟨_, hc⟩
            obtain ⟨h3, h4⟩ := hc c rfl
            rw [h3, hto.mpr h4]
            rfl
    | false =>
      rw [ht] at hag
      obtain ⟨⟨u, d, h1⟩, h2⟩ := hag
      refine ⟨fun e => ?_, fun hh => absurd hh.1 (by simp)⟩
      exfalso
      have hm : meaning win [(writeLoop win false s).1 ++ t] = ⟨.here, if u then 1 else 0, d⟩ := by
        rw [meaning_gather, readBack h1 hnil htt]
        dsimp only
        rw [fold_form h1 _ (by intro _; rfl)]
        rfl
      rw [← e, hm] at h2
      cases u <;> simp at h2

example : NoDrive true [txt "C:\\a\\b", txt "..\\c.txt"] ∧
    tame true [txt "C:\\a\\b", txt "..\\c.txt"] = true ∧
    meaning true [txt "C:\\a\\b", txt "..\\c.txt"] = ⟨.driveRoot 67, 0, [txt "a", txt "c.txt"]⟩ := by
  decide +kernel

/-- On POSIX: joining keeps the meaning exactly when no `..` climbs above the root or two directories
above the start. -/
theorem C22_meaning_posix_partial (ps : List (List Byte)) (hps : ps ≠ []) :
    ∃ out, joinAndNormalize false ps = some out ∧
      (meaning false [out] = meaning false ps ↔ tame false ps = true) := by
  obtain ⟨last, hl⟩ : ∃ last, ps.getLast? = some last := by
    cases hl : ps.getLast? with
    | none => exact absurd (List.getLast?_eq_none_iff.mp hl) hps
    | some l => exact ⟨l, rfl⟩
  obtain ⟨out, h1, h2⟩ := C22_meaning_partial false ps last hl (noDrive_posix ps)
  refine ⟨out, h1, h2.trans ⟨fun h => h.1, fun h => ⟨h, ?_⟩⟩⟩
  intro c hc
  exfalso
  rw [meaning_gather, foldl_stepT_fst] at hc
  have hstep : ∀ (ns : List (List Byte)) (l : Loc), (ns.foldl Loc.step l).anchor = l.anchor := by
    intro ns
    induction ns with
    | nil => intro l; rfl
    | cons n ns ih =>
      intro l
      rw [List.foldl_cons, ih]
      unfold Loc.step
      split
      · split
        · rfl
        · split <;> rfl
      · split <;> rfl
  rw [hstep] at hc
  have := ((gather_possible false (.here, []) ps (possible_here false)).1 c (Or.inl hc)).2
  cases this

example : tame false [txt "../a/b", txt "../../c"] = true ∧
    joinAndNormalize false [txt "../a/b", txt "../../c"] = some (txt "../c") := by decide +kernel

/-- Climbing two directories up is lost: `../..` becomes `.`, and `../../a` becomes `a`. -/
theorem C22_two_up :
    joinAndNormalize false [txt "../.."] = some (txt ".") ∧
    meaning false [txt "../.."] = ⟨.here, 2, []⟩ ∧ meaning false [txt "."] = ⟨.here, 0, []⟩ ∧
    joinAndNormalize false [txt "../../a"] = some (txt "a") := by
  decide +kernel

/-- `..` at the root removes the root: `/..` becomes `.`, and `/../a` becomes the relative `a`. -/
theorem C22_root_lost :
    joinAndNormalize false [txt "/.."] = some (txt ".") ∧
    joinAndNormalize false [txt "/../a"] = some (txt "a") ∧
    joinAndNormalize true [txt "C:\\..\\a"] = some (txt "a") ∧
    meaning false [txt "/../a"] = ⟨.root, 0, [txt "a"]⟩ ∧
    meaning false [txt "a"] = ⟨.here, 0, [txt "a"]⟩ := by
  decide +kernel

/-- A path relative to the current directory of a drive becomes absolute. -/
theorem C22_drive_relative :
    joinAndNormalize true [txt "C:a"] = some (txt "C:\\a") ∧
    (meaning true [txt "C:a"]).anchor = .drive 67 ∧
    (meaning true [txt "C:\\a"]).anchor = .driveRoot 67 := by
  decide +kernel

/-- On Windows a directory name that looks like a drive becomes one. -/
theorem C22_drive_name :
    joinAndNormalize true [txt ".\\C:x"] = some (txt "C:x") ∧
    meaning true [txt ".\\C:x"] = ⟨.here, 0, [txt "C:x"]⟩ ∧
    meaning true [txt "C:x"] = ⟨.drive 67, 0, [txt "x"]⟩ := by
  decide +kernel

/-- The result contains no `.` (unless it is `.` itself) and `..` only once, in front, and not after
an anchor. -/
theorem C22_normal_form (win : Bool) (ps : List (List Byte)) (last : List Byte)
    (hl : ps.getLast? = some last) (h : NoDrive win ps) :
    ∃ out, joinAndNormalize win ps = some out ∧
      ((out = [dot] ++ if last = [] then [sepByte win] else []) ∨
       ∃ down, (∀ n ∈ down, n ≠ [dot] ∧ n ≠ dotdot) ∧
        (names win (parse win out).2 = down ∨
          (names win (parse win out).2 = dotdot :: down ∧ (parse win out).1 = none))) := by
  obtain ⟨s, hs, hag⟩ := normComps_agree win ps h
  obtain ⟨a, u, d, hf⟩ := hag.form
  rw [join_eq hs hl]
  by_cases hnil : s = []
  · rw [if_pos hnil]
    exact ⟨_, rfl, Or.inl rfl⟩
  · rw [if_neg hnil]
    refine ⟨_, rfl, Or.inr ⟨d, fun n hn => ⟨(hf.proper n hn).2.1, (hf.proper n hn).2.2.1⟩, ?_⟩⟩
    generalize ht' : (if OpenEnd win last ∧ (writeLoop win false s).2 = true then [sepByte win] else [])
      = t
    have htt : t = [] ∨ (t = [sepByte win] ∧ (writeLoop win false s).2 = true) := by
      rw [← ht']
      split
      · next hc => exact Or.inr ⟨rfl, hc.2⟩
      · exact Or.inl rfl
    have hrb := readBack hf hnil htt
    rw [gather] at hrb
    cases hp : parse win ((writeLoop win false s).1 ++ t) with
    | mk pa pr =>
      rw [hp] at hrb
      cases pa with
      | none =>
        dsimp only at hrb ⊢
        rw [List.nil_append] at hrb
        injection hrb with _ hrb
        rw [hrb]
        cases u with
        | false => exact Or.inl rfl
        | true => exact Or.inr ⟨rfl, rfl⟩
      | some pa =>
        dsimp only at hrb ⊢
        injection hrb with hra hrb
        rw [hrb]
        cases u with
        | false => exact Or.inl rfl
        | true =>
          exfalso
          have ha : a = .here := by
            apply Classical.byContradiction
            intro ha
            have := hf.up ha
            cases this
          rw [ha] at hra
          dsimp only [settle] at hra
          rw [hra] at hp
          rcases parse_cases win ((writeLoop win false s).1 ++ t) with
            ⟨c, r, _, _, _, _, _, e⟩ | ⟨c, r, _, _, _, _, _, e⟩ | ⟨_, _, _, e⟩ | ⟨_, _, e⟩ <;>
            (rw [e] at hp; injection hp with hp _; cases hp)

example : joinAndNormalize false [txt "./..//a/./b/../c"] = some (txt "../a/c") := by decide +kernel

/-- Normalising a normalised path changes nothing, unless it is the `./` given for an empty last
argument. -/
theorem C22_idempotent_partial (win : Bool) (ps : List (List Byte)) (last : List Byte)
    (hl : ps.getLast? = some last) (h : NoDrive win ps) :
    ∃ out, joinAndNormalize win ps = some out ∧
      (out ≠ [dot, sepByte win] → joinAndNormalize win [out] = some out) := by
  obtain ⟨s, hs, hag⟩ := normComps_agree win ps h
  obtain ⟨a, u, d, hf⟩ := hag.form
  rw [join_eq hs hl]
  by_cases hnil : s = []
  · rw [if_pos hnil]
    refine ⟨_, rfl, ?_⟩
    intro hne
    by_cases hx : last = []
    · rw [if_pos hx] at hne; exact absurd rfl hne
    · rw [if_neg hx, List.append_nil]
      cases win <;> decide +kernel
  · rw [if_neg hnil]
    refine ⟨_, rfl, fun _ => ?_⟩
    generalize ht' : (if OpenEnd win last ∧ (writeLoop win false s).2 = true then [sepByte win] else [])
      = t
    have htt : t = [] ∨ (t = [sepByte win] ∧ (writeLoop win false s).2 = true) := by
      rw [← ht']
      split
      · next hc => exact Or.inr ⟨rfl, hc.2⟩
      · exact Or.inl rfl
    exact rewrite_same hf hnil htt rfl rfl

example : joinAndNormalize false [txt "/a//b/../c/"] = some (txt "/a/c/") ∧
    joinAndNormalize false [txt "/a/c/"] = some (txt "/a/c/") := by decide +kernel

/-- The exception is real. -/
theorem C22_not_idempotent :
    joinAndNormalize false [txt ""] = some (txt "./") ∧
    joinAndNormalize false [txt "./"] = some (txt ".") := by
  decide +kernel

/-- A result with a name in it ends with a separator exactly when the last argument is empty or ends
with one. -/
theorem C22_trailing (win : Bool) (ps : List (List Byte)) (last : List Byte)
    (hl : ps.getLast? = some last) (h : NoDrive win ps) :
    ∃ out, joinAndNormalize win ps = some out ∧
      ((∃ n ∈ names win (parse win out).2, n ≠ [dot]) → (OpenEnd win out ↔ OpenEnd win last)) := by
  obtain ⟨s, hs, hag⟩ := normComps_agree win ps h
  obtain ⟨a, u, d, hf⟩ := hag.form
  rw [join_eq hs hl]
  by_cases hnil : s = []
  · rw [if_pos hnil]
    refine ⟨_, rfl, ?_⟩
    rintro ⟨n, hn, hne⟩
    exfalso
    have hr := readDot win (if last = [] then [sepByte win] else []) (by
      split
      · exact Or.inr rfl
      · exact Or.inl rfl)
    rw [gather] at hr
    cases hp : parse win ([dot] ++ if last = [] then [sepByte win] else []) with
    | mk pa pr =>
      rw [hp] at hr hn
      cases pa with
      | none =>
        dsimp only at hr hn
        rw [List.nil_append] at hr
        injection hr with _ hr
        rw [hr, List.mem_singleton] at hn
        exact hne hn
      | some pa =>
        dsimp only at hr hn
        injection hr with _ hr
        rw [hr, List.mem_singleton] at hn
        exact hne hn
  · rw [if_neg hnil]
    refine ⟨_, rfl, ?_⟩
    generalize ht' : (if OpenEnd win last ∧ (writeLoop win false s).2 = true then [sepByte win] else [])
      = t
    have htt : t = [] ∨ (t = [sepByte win] ∧ (writeLoop win false s).2 = true) := by
      rw [← ht']
      split
      · next hc => exact Or.inr ⟨rfl, hc.2⟩
      · exact Or.inl rfl
    rintro ⟨n, hn, _⟩
    have hrb := readBack hf hnil htt
    have hmem : n ∈ upStr u ++ d := by
      rw [gather] at hrb
      cases hp : parse win ((writeLoop win false s).1 ++ t) with
      | mk pa pr =>
        rw [hp] at hrb hn
        cases pa <;>
        · dsimp only at hrb hn
          try rw [List.nil_append] at hrb
          injection hrb with _ hrb
          rw [hrb] at hn
          exact hn
    have hflag : (writeLoop win false s).2 = true := by
      obtain ⟨xs, y, e⟩ : ∃ xs y, upStr u ++ d = xs ++ [y] := by
        have hne : upStr u ++ d ≠ [] := List.ne_nil_of_mem hmem
        exact ⟨(upStr u ++ d).dropLast, (upStr u ++ d).getLast hne,
          (List.dropLast_concat_getLast hne).symm⟩
      have : s = (anchorStr win a ++ xs) ++ [y] := by
        rw [hf.eq, List.append_assoc, e, List.append_assoc]
      rw [this]
      exact (write_last (hf.fine y (by rw [e]; simp)).1 _ false).1
    have hno := write_open hf hnil hflag
    by_cases ho : OpenEnd win last
    · rw [if_pos ⟨ho, hflag⟩] at ht'
      subst ht'
      exact ⟨fun _ => ho, fun _ => openEnd_sep win _⟩
    · rw [if_neg (fun x => ho x.1)] at ht'
      subst ht'
      rw [List.append_nil]
      exact ⟨fun x => absurd x hno, fun x => absurd x ho⟩

example : (∃ n ∈ names false (parse false (txt "../a/")).2, n ≠ [dot]) ∧
    joinAndNormalize false [txt "../x", txt "../a", txt ""] = some (txt "../a/") ∧
    OpenEnd false (txt "") := by decide +kernel

/-- An argument that starts at a root or drive discards all arguments before it. -/
theorem C22_anchor_wins (win : Bool) (before : List (List Byte)) (p : List Byte)
    (after : List (List Byte)) (hp : (parse win p).1 ≠ none) :
    joinAndNormalize win (before ++ p :: after) = joinAndNormalize win (p :: after) := by
  obtain ⟨a, r, hpp⟩ : ∃ a r, parse win p = (some a, r) := by
    cases h : parse win p with
    | mk a r =>
      cases a with
      | none => rw [h] at hp; exact absurd rfl hp
      | some a => exact ⟨a, r, rfl⟩
  have hg : ∀ acc, gather win acc (p :: after) = gather win (a, names win r) after := by
    intro acc; rw [gather, hpp]
  have hn : normComps win (before ++ p :: after) = normComps win (p :: after) := by
    rw [normComps_eq, normComps_eq, gather_append, hg, hg]
  have hl : (before ++ p :: after).getLast? = (p :: after).getLast? := by
    rw [List.getLast?_append]
    cases h : (p :: after).getLast? with
    | none => exact absurd (List.getLast?_eq_none_iff.mp h) (by simp)
    | some x => rfl
  unfold joinAndNormalize
  rw [hn, hl]

example : (parse true (txt "D:x")).1 ≠ none := by decide +kernel

/-! ## C23: relative paths -/

/-- Starts at a root. -/
def Rooted (win : Bool) (p : List Byte) : Prop := ∃ a, (parse win p).1 = some a ∧ a.isRoot = true

theorem rooted_isAbsolute {win : Bool} {p : List Byte} (h : Rooted win p) : isAbsolute win p = true := by
  obtain ⟨a, h1, h2⟩ := h
  rcases parse_cases win p with ⟨c, r, _, _, _, _, h3, e⟩ | ⟨c, r, _, _, _, _, h3, e⟩ | ⟨_, _, h3, e⟩ |
    ⟨_, h3, e⟩
  · exact h3
  · rw [e] at h1; cases h1; cases h2
  · exact h3
  · rw [e] at h1; cases h1

theorem open_iff {win : Bool} {x : List Byte} (hx : x ≠ []) :
    x.getLast?.map (isSep win) = some true ↔ OpenEnd win x := by
  unfold OpenEnd
  cases hg : x.getLast? with
  | none => exact absurd (List.getLast?_eq_none_iff.mp hg) hx
  | some c => simp [isSep_iff]

/-- The core of the round trip when something matches or both are relative. -/
theorem rel_core {win : Bool} {anc desc : List Byte} {a : Anchor} {u : Bool}
    {down A D : List (List Byte)} (hd : desc ≠ [])
    (hA : normComps win [anc] = some A) (hDn : normComps win [desc] = some D)
    (hD : Form win a u down D) (hab : isAbsolute win anc = isAbsolute win desc)
    (hm : 0 < matching A D ∨ (a = .here ∧ isAbsolute win anc = false)) :
    ∃ rel, makeRelative win anc desc = some rel ∧ (parse win rel).1 = none ∧
      joinAndNormalize win [anc, rel] = joinAndNormalize win [desc] := by
  have hup : (if !isAbsolute win anc || matching A D > 0 then A.length - matching A D else 0) =
      A.length - matching A D := by
    rw [if_pos]
    rcases hm with hm | hm
    · simp [hm]
    · simp [hm.2]
  have hdn : ∀ n ∈ D.drop (matching A D), IsName win n := by
    intro n hn
    rcases hm with hm | hm
    · exact (hD.drop_proper hm n hn).1
    · have hse : D = upStr u ++ down := by rw [hD.eq, hm.1]; rfl
      exact (hD.fine n (by rw [← hse]; exact List.mem_of_mem_drop hn)).1
  obtain ⟨r2, w, ws, e1, e2, e3⟩ := rel_write (A.length - matching A D) (D.drop (matching A D)) hdn
  have hm' : 0 < matching A D ∨ a = .here := by
    rcases hm with hm | hm
    · exact Or.inl hm
    · exact Or.inr hm.1
  have hrel : makeRelative win anc desc =
      some (w ++ ws.flatMap (sepByte win :: ·) ++ if OpenEnd win desc then [sepByte win] else []) := by
    unfold makeRelative
    rw [if_pos hab, hA, hDn]
    dsimp only
    rw [hup, e1]
    dsimp only
    rw [e2]
    dsimp only
    by_cases ho : OpenEnd win desc
    · rw [if_pos ⟨(open_iff hd).mpr ho, rfl⟩, if_pos ho]
    · rw [if_neg (fun x => ho ((open_iff hd).mp x.1)), if_neg ho, List.append_nil]
  generalize ht : (if OpenEnd win desc then [sepByte win] else []) = t at hrel
  have hend : End win t := by
    rw [← ht]; split
    · exact Or.inr rfl
    · exact Or.inl rfl
  obtain ⟨hn, hfine⟩ := rel_join hA hD hm' t hend e3
  have hflat := flat_last ws (fun n hn => (hfine n hn).1)
  refine ⟨_, hrel, ?_, ?_⟩
  · rw [List.append_assoc, parse_tail (hfine w List.mem_cons_self) (tail_names ws t hend.seps)]
  · have hlast : OpenEnd win (w ++ ws.flatMap (sepByte win :: ·) ++ t) ↔ OpenEnd win desc := by
      by_cases ho : OpenEnd win desc
      · rw [if_pos ho] at ht; subst ht
        exact ⟨fun _ => ho, fun _ => openEnd_sep win _⟩
      · rw [if_neg ho] at ht; subst ht
        rw [List.append_nil]
        exact ⟨fun x => absurd x (not_openEnd hflat), fun x => absurd x ho⟩
    have hne : w ++ ws.flatMap (sepByte win :: ·) ++ t ≠ [] := by
      have := (hfine w List.mem_cons_self).1.1
      simp [this]
    rw [join_eq hn (last := w ++ ws.flatMap (sepByte win :: ·) ++ t) rfl, join_eq hDn (last := desc) rfl]
    by_cases hnil : D = []
    · rw [if_pos hnil, if_pos hnil, if_neg hne, if_neg hd]
    · rw [if_neg hnil, if_neg hnil]
      congr 2
      by_cases ho : OpenEnd win desc ∧ (writeLoop win false D).2 = true
      · rw [if_pos ho, if_pos ⟨hlast.mpr ho.1, ho.2⟩]
      · rw [if_neg ho, if_neg (fun x => ho ⟨hlast.mp x.1, x.2⟩)]

/-- Both relative: the relative path leads from the ancestor to the normalised descendant, without
exception (however many `..` the paths contain). -/
theorem C23_relative (win : Bool) (anc desc : List Byte) (hd : desc ≠ [])
    (h : NoDrive win [anc, desc]) (ha : (parse win anc).1 = none) (hdp : (parse win desc).1 = none) :
    ∃ rel, makeRelative win anc desc = some rel ∧ (parse win rel).1 = none ∧
      joinAndNormalize win [anc, rel] = joinAndNormalize win [desc] := by
  have hnd : NoDrive win [desc] := fun p hp => h p (by rw [List.mem_singleton] at hp; simp [hp])
  have hgd : gather win (.here, []) [desc] = (.here, names win desc) := by
    rw [gather, (show Plain win desc from hdp).parse.2.2]; rfl
  have hfine : ∀ n ∈ names win desc, Fine win n := by
    have := gather_fine win (.here, []) [desc] hnd (by simp)
    rw [hgd] at this
    exact this
  have hDn := normComps_eq win [desc]
  rw [hgd] at hDn
  dsimp only at hDn
  obtain ⟨u, down, hD⟩ : ∃ u down, Form win .here u down
      ((names win desc).foldl push (anchorStr win .here)) := by
    have gen : ∀ (ns s : List (List Byte)), (∀ n ∈ ns, Fine win n) →
        (∃ u down, Form win .here u down s) → ∃ u down, Form win .here u down (ns.foldl push s) := by
      intro ns
      induction ns with
      | nil => intro s _ hs; exact hs
      | cons n ns ih =>
        intro s hf hs
        obtain ⟨u, d, hs⟩ := hs
        exact ih _ (fun m hm => hf m (List.mem_cons_of_mem _ hm)) (push_loose hs (hf n List.mem_cons_self))
    exact gen _ _ hfine ⟨false, [], rfl, by simp, by simp, by simp, by simp⟩
  have h1 := (show Plain win anc from ha).parse.2.1
  have h2 := (show Plain win desc from hdp).parse.2.1
  exact rel_core hd (normComps_eq win [anc]) hDn hD (by rw [h1, h2]) (Or.inr ⟨rfl, h1⟩)

example : makeRelative false (txt "a/b") (txt "a/c/../d/") = some (txt "../d/") ∧
    joinAndNormalize false [txt "a/b", txt "../d/"] = some (txt "a/d/") ∧
    NoDrive false [txt "a/b", txt "a/c/../d/"] := by decide +kernel

/-- Both absolute, and the descendant does not climb above its root: the relative path leads from the
ancestor to the normalised descendant. -/
theorem C23_absolute_partial (win : Bool) (anc desc : List Byte) (h : NoDrive win [anc, desc])
    (ha : Rooted win anc) (hdr : Rooted win desc) (ht : tame win [desc] = true) :
    ∃ rel, makeRelative win anc desc = some rel ∧
      joinAndNormalize win [anc, rel] = joinAndNormalize win [desc] := by
  have hnd : NoDrive win [desc] := fun p hp => h p (by rw [List.mem_singleton] at hp; simp [hp])
  have h1 := rooted_isAbsolute ha
  have h2 := rooted_isAbsolute hdr
  have hd : desc ≠ [] := by
    rintro rfl
    cases win <;> cases h2
  obtain ⟨D, hDn, hag⟩ := normComps_agree win [desc] hnd
  rw [ht] at hag
  obtain ⟨_, hD⟩ := hag
  obtain ⟨A, hA⟩ : ∃ A, normComps win [anc] = some A := ⟨_, normComps_eq win [anc]⟩
  by_cases hm : 0 < matching A D
  · obtain ⟨rel, e1, _, e3⟩ := rel_core hd hA hDn hD (by rw [h1, h2]) (Or.inl hm)
    exact ⟨rel, e1, e3⟩
  · have hm0 : matching A D = 0 := by omega
    -- the anchor of the descendant
    obtain ⟨da, hda, hdroot⟩ := hdr
    have hanchor : (meaning win [desc]).anchor = da := by
      rw [meaning_gather, foldl_stepT_fst]
      have hstep : ∀ (ns : List (List Byte)) (l : Loc), (ns.foldl Loc.step l).anchor = l.anchor := by
        intro ns
        induction ns with
        | nil => intro l; rfl
        | cons n ns ih =>
          intro l
          rw [List.foldl_cons, ih]
          unfold Loc.step
          split
          · split
            · rfl
            · split <;> rfl
          · split <;> rfl
      rw [hstep]
      rw [gather]
      cases hp : parse win desc with
      | mk pa pr =>
        rw [hp] at hda
        dsimp only at hda
        subst hda
        rfl
    rw [hanchor] at hD
    have hu := hD.up (by rintro rfl; cases hdroot)
    rw [hu] at hD
    generalize (meaning win [desc]).down = down at hD
    obtain ⟨X, hX, hXw⟩ : ∃ X, D = (X ++ [sepByte win]) :: down ∧ anchorStr win da = [X ++ [sepByte win]] := by
      cases da with
      | here => cases hdroot
      | drive c => cases hdroot
      | root => exact ⟨[], by rw [hD.eq]; rfl, rfl⟩
      | driveRoot c => exact ⟨[c, 58], by rw [hD.eq]; rfl, rfl⟩
    have hDne : D ≠ [] := by rw [hX]; simp
    have hdl : downLoop win false D = some (writeLoop win false D) := by
      rw [hX, downLoop, writeLoop, wantsSep_root win X]
      rw [List.getLast?_append]
      dsimp only [List.getLast?_singleton, Option.some_or]
      rw [(isSep_iff win (sepByte win)).mpr (sep_sepByte win), Bool.not_true]
      cases down with
      | nil => rfl
      | cons n ns =>
        have hns : ∀ m ∈ n :: ns, IsName win m := fun m hm => (hD.proper m hm).1
        rw [downLoop_first n ns hns, writeLoop_names ns (hns n List.mem_cons_self)]
        rfl
    have hrel : makeRelative win anc desc = some ((writeLoop win false D).1 ++
        if OpenEnd win desc ∧ (writeLoop win false D).2 = true then [sepByte win] else []) := by
      unfold makeRelative
      rw [if_pos (by rw [h1, h2]), hA, hDn]
      dsimp only
      rw [h1, hm0, if_neg (by simp), List.drop_zero]
      have : (upLoop win 0 false) = ([], false) := rfl
      rw [this]
      dsimp only
      rw [hdl]
      dsimp only
      rw [List.nil_append, if_neg (show ¬ (writeLoop win false D).1.length = 0 by
        rw [hX]; simp [writeLoop])]
      by_cases ho : OpenEnd win desc ∧ (writeLoop win false D).2 = true
      · rw [if_pos ⟨(open_iff hd).mpr ho.1, ho.2⟩, if_pos ho]
      · rw [if_neg (fun x => ho ⟨(open_iff hd).mp x.1, x.2⟩), if_neg ho, List.append_nil]
    have hjd := join_eq hDn (last := desc) rfl
    rw [if_neg hDne] at hjd
    generalize ht' : (if OpenEnd win desc ∧ (writeLoop win false D).2 = true then [sepByte win] else [])
      = t at hrel hjd
    have htt : t = [] ∨ (t = [sepByte win] ∧ (writeLoop win false D).2 = true) := by
      rw [← ht']
      split
      · next hc => exact Or.inr ⟨rfl, hc.2⟩
      · exact Or.inl rfl
    refine ⟨_, hrel, ?_⟩
    rw [hjd]
    refine rewrite_same hD hDne htt ?_ rfl
    -- the relative path has an anchor, so the ancestor does not matter
    have hrb := readBack hD hDne htt
    have : [anc, (writeLoop win false D).1 ++ t] = [anc] ++ [(writeLoop win false D).1 ++ t] := rfl
    rw [this, gather_append]
    generalize gather win (.here, []) [anc] = acc
    rw [gather] at hrb
    cases hp : parse win ((writeLoop win false D).1 ++ t) with
    | mk pa pr =>
      cases pa with
      | some pa => simp only [gather, hp]
      | none =>
        exfalso
        rw [hp] at hrb
        dsimp only [gather] at hrb
        injection hrb with e _
        cases da with
        | here => cases hdroot
        | drive c => cases hdroot
        | root => cases e
        | driveRoot c => cases e

example : Rooted false (txt "/a/b") ∧ Rooted false (txt "/a/x/../c/") ∧
    tame false [txt "/a/x/../c/"] = true ∧
    makeRelative false (txt "/a/b") (txt "/a/x/../c/") = some (txt "../c/") :=
  ⟨⟨.root, by decide +kernel, rfl⟩, ⟨.root, by decide +kernel, rfl⟩, by decide +kernel, by decide +kernel⟩
example : makeRelative true (txt "C:\\a") (txt "D:\\b\\") = some (txt "D:\\b\\") := by decide +kernel

/-- Climbing above the root breaks the round trip. -/
theorem C23_counterexample :
    makeRelative false (txt "/x") (txt "/../y") = some (txt "y") ∧
    joinAndNormalize false [txt "/x", txt "y"] = some (txt "/x/y") ∧
    joinAndNormalize false [txt "/../y"] = some (txt "y") := by
  decide +kernel

end Verif.Path

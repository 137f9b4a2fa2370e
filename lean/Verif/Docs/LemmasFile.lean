import Verif.Docs.Spec
import Verif.Web.PropsFile

/-! # Lemmas about the files of pages -/

namespace Verif.Docs

open Verif Spec Verif.Path.Spec
open Verif.Web hiding lit
open Verif.Markdown (lit)

/-! ## Names of a path with something appended -/

theorem fields_ne (win : Bool) (p : List Byte) : fields win p ≠ [] := by
  cases p with
  | nil => simp [fields]
  | cons c p =>
    rw [fields]
    split
    · simp
    · split <;> simp

/-- Appending a piece without separators changes the last field only. -/
theorem fields_suffix {win : Bool} {s : List Byte} (hs : ∀ x ∈ s, ¬ Sep win x) (p : List Byte) :
    ∃ init l, fields win p = init ++ [l] ∧ fields win (p ++ s) = init ++ [l ++ s] ∧
      (l = [] ↔ OpenEnd win p) := by
  induction p with
  | nil => exact ⟨[], [], rfl, by rw [List.nil_append, Path.fields_single hs]; rfl, by simp [OpenEnd]⟩
  | cons c p ih =>
    obtain ⟨init, l, h1, h2, h3⟩ := ih
    have ho : p ≠ [] → (OpenEnd win (c :: p) ↔ OpenEnd win p) := by
      intro hp
      unfold OpenEnd
      rw [List.getLast?_cons_of_ne_nil hp]
    by_cases hc : Sep win c
    · refine ⟨[] :: init, l, ?_, ?_, ?_⟩
      · rw [fields, if_pos hc, h1]; rfl
      · rw [List.cons_append, fields, if_pos hc, h2]; rfl
      · cases p with
        | nil =>
          have : init ++ [l] = [[]] := by rw [← h1]; rfl
          have hl : l = [] := by
            cases init with
            | nil => simpa using this
            | cons a t => simp at this
          simp [hl, OpenEnd, hc]
        | cons d p => rw [ho (by simp)]; exact h3
    · cases hi : init with
      | nil =>
        subst hi
        refine ⟨[], c :: l, ?_, ?_, ?_⟩
        · rw [fields, if_neg hc, h1]; rfl
        · rw [List.cons_append, fields, if_neg hc, h2]; rfl
        · constructor
          · intro h; cases h
          · intro h
            cases p with
            | nil => simp [OpenEnd, hc] at h
            | cons d p =>
              exfalso
              rw [ho (by simp), ← h3] at h
              subst h
              -- a single empty field is the empty path
              rw [fields] at h1
              split at h1
              · have := fields_ne win p
                simp at h1
                exact this h1
              · split at h1 <;> simp at h1
      | cons a t =>
        subst hi
        refine ⟨(c :: a) :: t, l, ?_, ?_, ?_⟩
        · rw [fields, if_neg hc, h1]; rfl
        · rw [List.cons_append, fields, if_neg hc, h2]; rfl
        · cases p with
          | nil =>
            have : a :: t ++ [l] = [[]] := by rw [← h1]; rfl
            simp at this
          | cons d p => rw [ho (by simp)]; exact h3

theorem names_suffix {win : Bool} {s : List Byte} (hs : ∀ x ∈ s, ¬ Sep win x) (hne : s ≠ []) (p : List Byte) :
    (OpenEnd win p ∧ names win (p ++ s) = names win p ++ [s]) ∨
    (¬ OpenEnd win p ∧ ∃ init l, names win p = init ++ [l] ∧ names win (p ++ s) = init ++ [l ++ s]) := by
  obtain ⟨init, l, h1, h2, h3⟩ := fields_suffix hs p
  unfold names
  rw [h1, h2]
  by_cases hl : l = []
  · left
    refine ⟨h3.1 hl, ?_⟩
    subst hl
    simp [List.filter_append, hne]
  · right
    refine ⟨fun h => hl (h3.2 h), init.filter (· ≠ []), l, ?_, ?_⟩
    · simp [List.filter_append, hl]
    · simp [List.filter_append, hl]

/-! ## Every file is an HTML file -/

theorem html_ok (win : Bool) : ∀ x ∈ lit ".html", ¬ Sep win x := by cases win <;> decide

theorem html_name (l : List Byte) : l ++ lit ".html" ≠ [46] ∧ l ++ lit ".html" ≠ [46, 46] ∧ l ++ lit ".html" ≠ [] := by
  have h : ∀ k : List Byte, k.length < 5 → l ++ lit ".html" ≠ k := by
    intro k hk e
    have := congrArg List.length e
    rw [List.length_append, show (lit ".html").length = 5 from rfl] at this
    omega
  exact ⟨h _ (by decide), h _ (by decide), h _ (by decide)⟩

theorem parse_html (win : Bool) (q : List Byte) : ∃ r, (parse win (q ++ lit ".html")).2 = r ++ lit ".html" := by
  have key : ∀ c rest, q ++ lit ".html" = c :: 58 :: rest → ∃ r, rest = r ++ lit ".html" := by
    intro c rest h
    match q with
    | [] => exact absurd h (by simp [lit])
    | [a] => exact absurd h (by simp [lit])
    | a :: b :: q => exact ⟨q, by simpa using (List.cons.inj (List.cons.inj h).2).2.symm⟩
  cases win with
  | false =>
    refine ⟨q, ?_⟩
    unfold parse
    rw [if_neg (by simp)]
    split
    · split <;> rfl
    · rfl
  | true =>
    unfold parse
    rw [if_pos rfl]
    split
    · next c rest h =>
      obtain ⟨r, hr⟩ := key c rest h
      split
      · split
        · split <;> exact ⟨r, hr⟩
        · exact ⟨r, hr⟩
      · exact ⟨q, rfl⟩
    · exact ⟨q, rfl⟩

theorem writeLoop_last (win : Bool) (n : List Byte) : ∀ (s : List (List Byte)) (b : Bool),
    ∃ t, (Path.writeLoop win b (s ++ [n])).1 = t ++ n
  | [], true => ⟨[Path.sepByte win], by simp [Path.writeLoop]⟩
  | [], false => ⟨[], by simp [Path.writeLoop]⟩
  | c :: s, true => by
    obtain ⟨t, ht⟩ := writeLoop_last win n s true
    exact ⟨Path.sepByte win :: (c ++ t), by simp [Path.writeLoop, ht]⟩
  | c :: s, false => by
    obtain ⟨t, ht⟩ := writeLoop_last win n s (Path.wantsSep win c)
    exact ⟨c ++ t, by simp [Path.writeLoop, ht]⟩

theorem join_ends (win : Bool) (before : List (List Byte)) (q : List Byte) :
    ∃ out, Path.joinAndNormalize win (before ++ [q ++ lit ".html"]) = some (out ++ lit ".html") := by
  obtain ⟨r, hr⟩ := parse_html win q
  obtain ⟨ns, n, hn⟩ : ∃ ns n, names win (r ++ lit ".html") = ns ++ [n ++ lit ".html"] := by
    rcases names_suffix (html_ok win) (by decide) r with ⟨_, h⟩ | ⟨_, init, l, _, h⟩
    · exact ⟨_, [], h⟩
    · exact ⟨_, _, h⟩
  have hg : ∃ ms, (Path.gather win (.here, []) (before ++ [q ++ lit ".html"])).2 = ms ++ [n ++ lit ".html"] := by
    rw [Path.gather_append]
    generalize Path.gather win (.here, []) before = acc
    rw [Path.gather, Path.gather]
    generalize hp : parse win (q ++ lit ".html") = pr at hr
    obtain ⟨a, rest⟩ := pr
    dsimp only at hr
    subst hr
    cases a with
    | none => exact ⟨acc.2 ++ ns, by dsimp only; rw [hn, List.append_assoc]⟩
    | some a => exact ⟨ns, hn⟩
  obtain ⟨ms, hms⟩ := hg
  have hc := Path.normComps_eq win (before ++ [q ++ lit ".html"])
  rw [hms, List.foldl_append] at hc
  generalize ms.foldl Path.push _ = s0 at hc
  have hpush : [n ++ lit ".html"].foldl Path.push s0 = s0 ++ [n ++ lit ".html"] := by
    obtain ⟨h1, h2, h3⟩ := html_name n
    show Path.push s0 (n ++ lit ".html") = _
    unfold Path.push
    rw [if_neg h2, if_pos ⟨h1, h3⟩]
  rw [hpush] at hc
  rw [Path.join_eq (last := q ++ lit ".html") hc (by simp), if_neg (by simp), if_neg (by
    rintro ⟨h, _⟩
    unfold OpenEnd at h
    rw [List.getLast?_append, show (lit ".html").getLast? = some 108 from rfl, Option.some_or] at h
    revert h
    cases win <;> decide)]
  obtain ⟨t, ht⟩ := writeLoop_last win (n ++ lit ".html") s0 false
  exact ⟨t ++ n, by rw [ht]; simp⟩

/-! ## Plain paths -/

theorem stepT_plain (ns : List (List Byte)) (h : Plainly ns) (a : Anchor) (v : Nat) (R : List (List Byte)) :
    ns.foldl stepT (⟨a, v, R⟩, true) = (⟨a, v, R ++ ns⟩, true) := by
  induction ns generalizing R with
  | nil => simp
  | cons n ns ih =>
    obtain ⟨h1, h2⟩ := h n List.mem_cons_self
    have e : stepT (⟨a, v, R⟩, true) n = (⟨a, v, R ++ [n]⟩, true) := by
      simp [stepT, okStep, Loc.step, h1, h2]
    rw [List.foldl_cons, e, ih (fun m hm => h m (List.mem_cons_of_mem _ hm))]
    simp

theorem follow_meaning (root : List Byte) (ht : tame false [root] = true) :
    followT false (⟨.here, 0, []⟩, true) root = (meaning false [root], true) :=
  Prod.ext (Path.followT_fst false [root] (⟨.here, 0, []⟩, true)) ht

/-- Joined paths mean what they say if nothing climbs too far. -/
theorem join_meaning (ps : List (List Byte)) (hps : ps ≠ []) (l : Loc)
    (h : ps.foldl (followT false) (⟨.here, 0, []⟩, true) = (l, true)) :
    ∃ out, Path.joinAndNormalize false ps = some out ∧ meaning false [out] = l := by
  obtain ⟨out, h1, h2⟩ := Path.C22_meaning_posix_partial ps hps
  refine ⟨out, h1, ?_⟩
  rw [h2.2 (by unfold tame; rw [h])]
  have := Path.followT_fst false ps (⟨.here, 0, []⟩, true)
  rw [h] at this
  exact this.symm

/-- A normalised path that leads somewhere below its anchor consists of plain names. -/
theorem plain_of_meaning (ps : List (List Byte)) (q : List Byte) (hps : ps ≠ [])
    (hq : Path.joinAndNormalize false ps = some q) (hu : (meaning false [q]).ups = 0)
    (hd : (meaning false [q]).down ≠ []) :
    Plainly (names false q) ∧ (meaning false [q]).down = names false q := by
  obtain ⟨last, hl⟩ : ∃ last, ps.getLast? = some last := by
    cases hl : ps.getLast? with
    | none => exact absurd (List.getLast?_eq_none_iff.mp hl) hps
    | some l => exact ⟨l, rfl⟩
  have hrest : (parse false q).2 = q := by
    unfold parse
    rw [if_neg (by simp)]
    split
    · split <;> rfl
    · rfl
  obtain ⟨a, ha⟩ : ∃ a, meaning false [q] = (names false q).foldl Loc.step ⟨a, 0, []⟩ := by
    show ∃ a, follow false _ q = _
    unfold follow
    generalize hp : parse false q = pr at hrest
    obtain ⟨x, rest⟩ := pr
    dsimp only at hrest
    subst hrest
    cases x with
    | none => exact ⟨_, rfl⟩
    | some x => exact ⟨_, rfl⟩
  have hm : ∀ ns, Plainly ns → ∀ l : Loc, (ns.foldl Loc.step l).down = l.down ++ ns ∧ (ns.foldl Loc.step l).ups = l.ups := by
    intro ns hns l
    obtain ⟨a, v, R⟩ := l
    have := Path.foldl_stepT_fst ns (⟨a, v, R⟩, true)
    rw [stepT_plain ns hns] at this
    rw [← this]
    exact ⟨rfl, rfl⟩
  obtain ⟨out, h1, h2⟩ := Path.C22_normal_form false ps last hl (Path.noDrive_posix ps)
  rw [hq] at h1
  cases h1
  rcases h2 with h2 | ⟨down, hp, h2 | ⟨h2, h3⟩⟩
  · exfalso
    have : meaning false [q] = ⟨.here, 0, []⟩ := by
      rw [h2, Path.meaning_gather, Path.readDot false _ (by split; exact Or.inr rfl; exact Or.inl rfl)]
      rfl
    rw [this] at hd
    exact hd rfl
  · rw [hrest] at h2
    rw [h2]
    refine ⟨hp, ?_⟩
    rw [ha, h2, (hm _ hp _).1]
    rfl
  · exfalso
    rw [hrest] at h2
    rw [ha, h2, List.foldl_cons] at hu
    rw [(hm _ hp _).2] at hu
    have hh : a = .here := by
      have : (meaning false [q]).anchor = .here := by
        show (follow false _ q).anchor = _
        unfold follow
        generalize parse false q = pr at h3
        obtain ⟨x, rest⟩ := pr
        dsimp only at h3
        subst h3
        exact step_anchor _ _
      rw [ha, step_anchor] at this
      exact this
    subst hh
    revert hu
    decide

/-! ## The file of a page -/

/-- Where the request leads from the folder of pages. -/
theorem join_pages (root req : List Byte) (ht : tame false [root] = true) (hp : (parse false req).1 = none)
    (hu : (meaning false [req]).ups ≤ (meaning false [root, lit "pages"]).down.length) :
    followT false (⟨.here, 0, []⟩, true) root = (meaning false [root], true) ∧
    meaning false [root, lit "pages"] =
      ⟨(meaning false [root]).anchor, (meaning false [root]).ups, (meaning false [root]).down ++ [lit "pages"]⟩ ∧
    followT false (meaning false [root], true) (lit "pages") = (meaning false [root, lit "pages"], true) ∧
    ∃ q, Path.joinAndNormalize false [root, lit "pages", req] = some q ∧
      meaning false [q] = from_ (meaning false [root, lit "pages"]) (meaning false [req]).ups (meaning false [req]).down := by
  have hroot := follow_meaning root ht
  have hpages : ∀ x : Loc, followT false (x, true) (lit "pages") = (⟨x.anchor, x.ups, x.down ++ [lit "pages"]⟩, true) := by
    intro x
    have e1 : parse false (lit "pages") = (none, lit "pages") := by decide
    have e2 : names false (lit "pages") = [lit "pages"] := by decide
    rw [followT.eq_def, e1]
    dsimp only
    rw [e2]
    obtain ⟨a, v, R⟩ := x
    exact stepT_plain [lit "pages"] (by unfold Plainly; decide) a v R
  have hm : meaning false [root, lit "pages"] =
      ⟨(meaning false [root]).anchor, (meaning false [root]).ups, (meaning false [root]).down ++ [lit "pages"]⟩ := by
    have := Path.followT_fst false [root, lit "pages"] (⟨.here, 0, []⟩, true)
    simp only [List.foldl_cons, List.foldl_nil] at this
    rw [hroot, hpages] at this
    exact this.symm
  refine ⟨hroot, hm, ?_, ?_⟩
  · rw [hpages, hm]
  have hpp := (show Path.Plain false req from hp).parse.2.2
  have hrelm : meaning false [req] = (names false req).foldl Loc.step ⟨.here, 0, []⟩ := by
    show follow false _ req = _
    unfold follow
    rw [hpp]
  have hanc : (meaning false [req]).anchor = .here := by rw [hrelm, step_anchor]
  apply join_meaning _ (by simp)
  simp only [List.foldl_cons, List.foldl_nil]
  rw [hroot, hpages, ← hm]
  rw [followT.eq_def, hpp]
  dsimp only
  generalize meaning false [root, lit "pages"] = M at hu ⊢
  obtain ⟨a, v, R⟩ := M
  generalize hD : meaning false [req] = D at *
  obtain ⟨a', u, d⟩ := D
  dsimp only at *
  subst hanc
  have hc := climb a v R (names false req) 0 [] u d hrelm.symm hu
  rw [List.append_nil, Nat.sub_zero, List.take_length] at hc
  exact hc

theorem followT_plain (x : Loc) (p : List Byte) (hp : Plainly (names false p)) :
    followT false (x, true) p =
      (if (parse false p).1 = none then ⟨x.anchor, x.ups, x.down ++ names false p⟩ else ⟨.root, 0, names false p⟩, true) := by
  obtain ⟨a, v, R⟩ := x
  have hcase : parse false p = (none, p) ∨ parse false p = (some .root, p) := by
    unfold parse
    rw [if_neg (by simp)]
    split
    · split
      · exact Or.inr rfl
      · exact Or.inl rfl
    · exact Or.inl rfl
  rw [followT.eq_def]
  rcases hcase with h | h <;> rw [h]
  · exact stepT_plain _ hp a v R
  · dsimp only
    rw [stepT_plain _ hp]
    simp

theorem page_core (root req : List Byte) (isDir : List Byte → Bool) (ht : tame false [root] = true)
    (hp : (parse false req).1 = none)
    (hu : (meaning false [req]).ups ≤ (meaning false [root, lit "pages"]).down.length)
    (h0 : (meaning false [root]).ups = 0) (base : Loc)
    (hbase : base = from_ (meaning false [root, lit "pages"]) (meaning false [req]).ups (meaning false [req]).down)
    (hd : base.down ≠ []) :
    ∃ q p, meaning false [q] = base ∧ pageFile false root isDir req = .load p ∧
      meaning false [p] = if (meaning false [root]).anchor = .root then
          ⟨.root, 0, pageName (isDir q) (OpenEnd false req) base.down⟩
        else ⟨.here, 0, (meaning false [root, lit "pages"]).down ++ pageName (isDir q) (OpenEnd false req) base.down⟩ := by
  obtain ⟨hroot, hm, hpg, q, hq, hqm⟩ := join_pages root req ht hp hu
  rw [← hbase] at hqm
  have hups : (meaning false [q]).ups = 0 := by
    rw [hqm, hbase]
    unfold from_
    rw [hm]
    exact h0
  obtain ⟨hpl, hdn⟩ := plain_of_meaning _ q (by simp) hq hups (by rw [hqm]; exact hd)
  rw [hqm] at hdn
  -- the anchor of `q`
  have hqa : (meaning false [q]).anchor = (meaning false [root]).anchor := by
    rw [hqm, hbase]; unfold from_; rw [hm]
  have hqp : (parse false q).1 = none ↔ (meaning false [root]).anchor ≠ .root := by
    have := followT_plain ⟨.here, 0, []⟩ q hpl
    have h2 := Path.followT_fst false [q] (⟨.here, 0, []⟩, true)
    simp only [List.foldl_cons, List.foldl_nil] at h2
    rw [this] at h2
    rw [← hqa]
    show _ ↔ (follow false _ q).anchor ≠ .root
    rw [← h2]
    split <;> simp_all
  have hother : (meaning false [root]).anchor ≠ .root → (meaning false [root]).anchor = .here := by
    intro h
    rw [← hqa] at h ⊢
    have h2 := Path.followT_fst false [q] (⟨.here, 0, []⟩, true)
    simp only [List.foldl_cons, List.foldl_nil] at h2
    rw [followT_plain ⟨.here, 0, []⟩ q hpl] at h2
    show (follow false _ q).anchor = .here
    have h' : (follow false ⟨.here, 0, []⟩ q).anchor ≠ .root := h
    rw [← h2] at h' ⊢
    revert h'
    split <;> simp
  have hoe : OpenEnd false q ↔ OpenEnd false req := by
    obtain ⟨out, h1, h2⟩ := Path.C22_trailing false [root, lit "pages", req] req rfl (Path.noDrive_posix _)
    rw [hq] at h1
    cases h1
    apply h2
    have hrest : (parse false q).2 = q := by
      unfold parse
      rw [if_neg (by simp)]
      split
      · split <;> rfl
      · rfl
    rw [hrest]
    cases hn : names false q with
    | nil => rw [hn] at hdn; exact absurd hdn hd
    | cons n ns => exact ⟨n, List.mem_cons_self, (hpl n (by rw [hn]; exact List.mem_cons_self)).1⟩
  -- the file's path before the second join
  obtain ⟨f, hf, hfpl, hfn, hfp⟩ : ∃ f, (if isDir q then Path.joinAndNormalize false [q, lit "index.html"]
        else some (q ++ lit ".html")) = some f ∧ Plainly (names false f) ∧
      names false f = pageName (isDir q) (OpenEnd false req) base.down ∧
      ((parse false f).1 = none ↔ (meaning false [root]).anchor ≠ .root) := by
    by_cases hdir : isDir q = true
    · have hidx : Plainly (names false (lit "index.html")) := by unfold Plainly; decide
      have hfull : [q, lit "index.html"].foldl (followT false) (⟨.here, 0, []⟩, true) =
          (⟨(meaning false [q]).anchor, 0, base.down ++ [lit "index.html"]⟩, true) := by
        simp only [List.foldl_cons, List.foldl_nil]
        have e : followT false (⟨.here, 0, []⟩, true) q = (meaning false [q], true) := by
          have h1 := followT_plain ⟨.here, 0, []⟩ q hpl
          have h2 := Path.followT_fst false [q] (⟨.here, 0, []⟩, true)
          exact Prod.ext h2 (by rw [h1])
        rw [e, followT_plain _ _ hidx, if_pos (by decide), hups, hqm]
        congr 2
      obtain ⟨f, h1, h2⟩ := join_meaning _ (by simp) _ hfull
      obtain ⟨h3, h4⟩ := plain_of_meaning _ f (by simp) h1 (by rw [h2]) (by rw [h2]; simp)
      refine ⟨f, by rw [if_pos hdir, h1], h3, ?_, ?_⟩
      · rw [← h4, h2]
        simp [pageName, hdir]
      · have h5 := followT_plain ⟨.here, 0, []⟩ f h3
        have h6 := Path.followT_fst false [f] (⟨.here, 0, []⟩, true)
        simp only [List.foldl_cons, List.foldl_nil] at h6
        rw [h5] at h6
        have h7 : (meaning false [f]).anchor = (meaning false [root]).anchor := by rw [h2]; exact hqa
        rw [← h7]
        show _ ↔ (follow false _ f).anchor ≠ .root
        rw [← h6]
        split <;> simp_all
    · have hqne : q ≠ [] := by
        rintro rfl
        rw [hdn] at hd
        exact hd rfl
      have hpar : (parse false (q ++ lit ".html")).1 = (parse false q).1 := by
        cases q with
        | nil => exact absurd rfl hqne
        | cons c q =>
          simp only [parse, List.cons_append]
          simp only [Bool.false_eq_true, ↓reduceIte]
          split <;> rfl
      refine ⟨q ++ lit ".html", by rw [if_neg hdir], ?_⟩
      rcases names_suffix (html_ok false) (by decide) q with ⟨ho, h⟩ | ⟨ho, init, l, h1, h⟩
      · refine ⟨?_, ?_, by rw [hpar]; exact hqp⟩
        · rw [h]
          intro n hn
          rcases List.mem_append.1 hn with hn | hn
          · exact hpl n hn
          · rw [List.mem_singleton.1 hn]; decide
        · rw [h, ← hdn]
          simp [pageName, hdir, hoe.1 ho]
      · refine ⟨?_, ?_, by rw [hpar]; exact hqp⟩
        · rw [h]
          intro n hn
          rcases List.mem_append.1 hn with hn | hn
          · exact hpl n (by rw [h1]; exact List.mem_append_left _ hn)
          · rw [List.mem_singleton.1 hn]; exact ⟨(html_name l).1, (html_name l).2.1⟩
        · rw [h, hdn, h1]
          have ho2 : ¬ OpenEnd false req := fun k => ho (hoe.2 k)
          rw [pageName, if_neg hdir, decide_eq_false ho2, if_neg (by simp), List.dropLast_concat, List.getLast?_concat]
          rfl
  -- the second join
  obtain ⟨p, hp1, hp2⟩ := join_meaning [root, lit "pages", f] (by simp)
    (if (parse false f).1 = none then ⟨(meaning false [root, lit "pages"]).anchor, (meaning false [root, lit "pages"]).ups,
      (meaning false [root, lit "pages"]).down ++ names false f⟩ else ⟨.root, 0, names false f⟩) (by
    simp only [List.foldl_cons, List.foldl_nil]
    rw [hroot, hpg, followT_plain _ _ hfpl])
  refine ⟨q, p, hqm, ?_, ?_⟩
  · unfold pageFile
    have habs : Path.isAbsolute false req = false := (show Path.Plain false req from hp).parse.2.1
    rw [habs, if_neg (by simp), hq]
    dsimp only
    rw [hf]
    dsimp only
    rw [hp1]
  · rw [hp2, hfn]
    by_cases ha : (meaning false [root]).anchor = .root
    · rw [if_pos ha, if_neg (fun h => (hfp.1 h) ha)]
    · rw [if_neg ha, if_pos (hfp.2 ha), hm]
      rw [hother ha, h0]

end Verif.Docs

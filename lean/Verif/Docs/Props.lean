import Verif.Docs.Lemmas
import Verif.Docs.LemmasFile
import Verif.Web.Lemmas

/-!
# C84: what the documentation server answers

`Reads` and `Dom` are the small HTML grammar of C60, `meaning` and `Inside` those of C22 and C46.
-/

namespace Verif.Docs

open Verif Spec Verif.Path.Spec
open Verif.Web (from_ posix_anchor step_anchor)
open Verif.Web.Spec (Inside IsLine)
open Verif.Markdown (lit)
open Verif.Markdown.Spec (Reads WellFormed)

/-! ## The table of contents -/

theorem expand_chosen (contents : List Contents) (request : List Byte) :
    expandTo (indexOf contents) request = left (chosen contents request) [] := by
  have e : (if request ≠ [] then lit "/docs/" ++ request else lit "/") = target request := by
    unfold target
    by_cases h : request = [] <;> simp [h]
  unfold expandTo
  rw [e, find_indexOf, left_top]
  cases chosen contents request <;> rfl

/-- **C84**, the table of contents: for every table and every page, a browser sees each entry once, in its place, with
its title; open are exactly the entries on the way to the last entry whose link is the page's, and that one is
selected.  Missing: links that are not written as HTML wants them (`C84_link_breaks`). -/
theorem C84_sidebar_partial : ∃ shown : List Byte → List Byte,
    (∀ s, Esc.NoOverlongAscii s → shown s = s) ∧
    ∀ (contents : List Contents) (request : List Byte) (href : List Byte → List Byte),
      (∀ e ∈ listedAll [] 0 contents, e.2 ≠ [] → Esc.Resolves e.2 (href e.2)) →
      ∃ out, sidebar contents request = some out ∧
        Reads out (entriesDom shown href (chosen contents request) [] 0 contents) := by
  have hex : ∀ s, ∃ t, (∃ o, Esc.xmlEscape 0 s = some o ∧ Esc.Resolves o t) ∧
      (Esc.NoOverlongAscii s → t = s) := by
    intro s
    obtain ⟨o, t, h1, h2, _⟩ := Esc.C11_no_markup 0 s
    refine ⟨t, ⟨o, h1, h2⟩, fun hs => ?_⟩
    obtain ⟨o', h3, h4⟩ := Esc.C11_roundtrip_partial s hs
    rw [h1] at h3
    cases h3
    exact Esc.C11_resolve_unique h2 h4
  refine ⟨fun s => (hex s).choose, fun s hs => (hex s).choose_spec.2 hs, fun contents request href hl => ?_⟩
  unfold sidebar
  rw [expand_chosen]
  apply dumpAll_reads _ href (fun s => (hex s).choose_spec.1)
  intro l hlm hne
  rw [← listedAll_links [] 0 contents, List.mem_map] at hlm
  obtain ⟨e, he, rfl⟩ := hlm
  exact hl e he hne

/-- Three entries, the second of them below the first. -/
def sample : List Contents :=
  [.mk (lit "A & B") (lit "/docs/a") [.mk (lit "C") (lit "/docs/a/c") []], .mk (lit "D") [] []]

example : sidebar sample (lit "a/c") = some (lit (
    "<a href=\"/docs/a\"><li class=\"selectable caret caret-down\"><span>A &amp; B</span></li>\n</a>" ++
    "<ul class=\"nested active\">\n<a href=\"/docs/a/c\"><li class=\"selectable selected\"><span>C</span></li>\n</a></ul>\n" ++
    "<li class=\"selectable\"><span>D</span></li>\n")) ∧
    chosen sample (lit "a/c") = some [0, 0] ∧ chosen sample (lit "a") = some [0] ∧ chosen sample [] = none := by
  decide +kernel

example : ∀ e ∈ listedAll [] 0 sample, e.2 ≠ [] → Esc.Resolves e.2 (id e.2) := by
  intro e he _
  apply Markdown.resolves_plain
  have h : ∀ e ∈ listedAll [] 0 sample, ∀ c ∈ e.2, c ≠ 38 ∧ c ≠ 60 ∧ c ≠ 62 ∧ c ≠ 34 := by decide
  exact h e he

/-- Of two entries with the same link the lower one is selected. -/
example : chosen [.mk (lit "A") (lit "/") [], .mk (lit "B") (lit "/") []] [] = some [1] := by decide

mutual
theorem dump_total (way : Way) (expand : List Way) : ∀ c : Contents, ∃ out, dump way expand c = some out
  | .mk title link children => by
    obtain ⟨t, _, ht, _⟩ := Esc.C11_no_markup 0 title
    obtain ⟨b, hb⟩ := dumpAll_total way (expansion way expand).2.2 0 children
    rw [dump]
    rw [ht, hb]
    exact ⟨_, rfl⟩
theorem dumpAll_total (way : Way) (expand : List Way) (i : Nat) : ∀ cs : List Contents,
    ∃ out, dumpAll way expand i cs = some out
  | [] => ⟨[], rfl⟩
  | c :: cs => by
    obtain ⟨a, ha⟩ := dump_total (way ++ [i]) expand c
    obtain ⟨b, hb⟩ := dumpAll_total way expand (i + 1) cs
    rw [dumpAll, ha, hb]
    exact ⟨_, rfl⟩
end

/-- C84: writing the table of contents never fails an assertion. -/
theorem C84_sidebar_total (contents : List Contents) (request : List Byte) : ∃ out, sidebar contents request = some out :=
  dumpAll_total _ _ _ _

/-- C84: links are written as they are.  A link with an odd number of quotes makes the page ill formed. -/
theorem C84_link_breaks (title link request : List Byte) (hl : link.count 34 % 2 = 1) :
    ∃ out before after, sidebar [.mk title link []] request = some out ∧ out = before ++ link ++ after ∧
      ¬ WellFormed out := by
  have hne : link ≠ [] := by rintro rfl; simp at hl
  obtain ⟨t, _, ht, hr, hq⟩ := Esc.C11_no_markup 0 title
  have h0 : t.count 34 = 0 := List.count_eq_zero.2 (fun h => (hq 34 h).2.2 rfl)
  unfold sidebar
  rw [expand_chosen]
  generalize chosen _ _ = sel
  have hd : ∀ o s, (liOpen false o s).count 34 = 2 := by decide
  rw [dumpAll, dumpAll, dump, dumpAll]
  simp only [expansion_left, ht, hne, ne_eq, not_false_eq_true, ↓reduceIte, List.isEmpty_nil, Bool.not_true,
    Bool.false_eq_true, List.append_nil, Option.bind_eq_bind, Option.bind_some, Option.pure_def, Option.some.injEq]
  refine ⟨_, lit "<a href=\"", lit "\">" ++ (liOpen false (decide (Open sel ([] ++ [0]))) (decide (sel = some ([] ++ [0]))) ++
    (lit "<span>" ++ (t ++ (lit "</span>" ++ (lit "</li>\n" ++ lit "</a>"))))), rfl, by simp only [List.append_assoc], ?_⟩
  rintro ⟨ds, h⟩
  have := count_reads h
  simp only [List.count_append, h0, hd] at this
  have e : (lit "<a href=\"").count 34 = 1 ∧ (lit "\">").count 34 = 1 ∧ (lit "<span>").count 34 = 0 ∧
      (lit "</span>").count 34 = 0 ∧ (lit "</li>\n").count 34 = 0 ∧ (lit "</a>").count 34 = 0 := by decide
  omega

example : (lit "\"><script>alert(1)</script>").count 34 % 2 = 1 ∧
    sidebar [.mk (lit "T") (lit "\"><script>alert(1)</script>") []] [] = some (lit
      "<a href=\"\"><script>alert(1)</script>\"><li class=\"selectable\"><span>T</span></li>\n</a>") := by
  decide +kernel

/-! ## The files of pages -/

theorem ups_root : ∀ (ns : List (List Byte)) (d : List (List Byte)), (ns.foldl Loc.step ⟨.root, 0, d⟩).ups = 0
  | [], _ => rfl
  | n :: ns, d => by
    rw [List.foldl_cons]
    have : ∃ d', Loc.step ⟨.root, 0, d⟩ n = ⟨.root, 0, d'⟩ := by
      unfold Loc.step
      split
      · split
        · exact ⟨_, rfl⟩
        · exact ⟨_, rfl⟩
      · split <;> exact ⟨_, rfl⟩
    obtain ⟨d', e⟩ := this
    rw [e]
    exact ups_root ns d'

theorem ups_of_root {root : List Byte} (h : (meaning false [root]).anchor = .root) : (meaning false [root]).ups = 0 := by
  show (follow false _ root).ups = 0
  have h' : (follow false ⟨.here, 0, []⟩ root).anchor = .root := h
  unfold follow at h' ⊢
  generalize hp : parse false root = pr at h'
  obtain ⟨a, rest⟩ := pr
  cases a with
  | none => dsimp only at h'; rw [step_anchor] at h'; cases h'
  | some a =>
    dsimp only at h' ⊢
    rw [step_anchor] at h'
    dsimp only at h'
    rw [h']
    exact ups_root _ _

theorem pages_meaning (root : List Byte) :
    meaning false [root, lit "pages"] =
      ⟨(meaning false [root]).anchor, (meaning false [root]).ups, (meaning false [root]).down ++ [lit "pages"]⟩ := by
  show follow false (meaning false [root]) (lit "pages") = _
  generalize meaning false [root] = x
  obtain ⟨a, v, R⟩ := x
  have e : parse false (lit "pages") = (none, lit "pages") := by decide
  have e2 : names false (lit "pages") = [lit "pages"] := by decide
  unfold follow
  rw [e]
  dsimp only
  rw [e2]
  simp only [List.foldl_cons, List.foldl_nil, Loc.step]
  rw [if_neg (by decide), if_neg (by decide)]

/-- C84: an absolute request is refused. -/
theorem C84_absolute (win : Bool) (root req : List Byte) (isDir : List Byte → Bool)
    (h : Path.isAbsolute win req = true) : pageFile win root isDir req = .notFound := by
  unfold pageFile
  rw [if_pos h]

example : pageFile false (lit "/srv") (fun _ => false) (lit "/etc/passwd") = .notFound := by decide +kernel

/-- **C84**: whatever is requested, on either platform and whatever directories there are, the only files read are
those whose names end with `.html`. -/
theorem C84_only_html (win : Bool) (root req : List Byte) (isDir : List Byte → Bool) :
    pageFile win root isDir req = .notFound ∨ ∃ p, pageFile win root isDir req = .load (p ++ lit ".html") := by
  unfold pageFile
  by_cases h : Path.isAbsolute win req = true
  · left; rw [if_pos h]
  · right
    rw [if_neg h]
    obtain ⟨q, hq, _⟩ := Path.C22_total win [root, lit "pages", req]
    rw [hq]
    dsimp only
    obtain ⟨f, hf⟩ : ∃ f, (if isDir q = true then Path.joinAndNormalize win [q, lit "index.html"]
        else some (q ++ lit ".html")) = some (f ++ lit ".html") := by
      by_cases hd : isDir q = true
      · rw [if_pos hd]
        exact join_ends win [q] (lit "index")
      · rw [if_neg hd]; exact ⟨q, rfl⟩
    rw [hf]
    dsimp only
    obtain ⟨p, hp⟩ := join_ends win [root, lit "pages"] f
    rw [show [root, lit "pages", f ++ lit ".html"] = [root, lit "pages"] ++ [f ++ lit ".html"] from rfl, hp]
    exact ⟨p, rfl⟩

example : pageFile false (lit "/srv") (fun _ => true) (lit "a/b") = .load (lit "/srv/pages/a/b/index.html") ∧
    pageFile false (lit "/srv") (fun _ => false) (lit "a/b") = .load (lit "/srv/pages/a/b.html") ∧
    pageFile false (lit "/srv") (fun _ => false) (lit "a/b/") = .load (lit "/srv/pages/a/b/.html") ∧
    pageFile false (lit "/srv") (fun _ => true) [] = .load (lit "/srv/pages/index.html") := by decide +kernel

/-- **C84**, the file of a page on POSIX, for an absolute root that normalises faithfully and every relative request: it
is the one the request names from the folder of pages, climbing included.  Missing: requests that climb to `/` or
above. -/
theorem C84_page_partial (root req : List Byte) (isDir : List Byte → Bool) (ht : tame false [root] = true)
    (ha : (meaning false [root]).anchor = .root) (hp : (parse false req).1 = none) (base : Loc)
    (hbase : base = from_ (meaning false [root, lit "pages"]) (meaning false [req]).ups (meaning false [req]).down)
    (hu : (meaning false [req]).ups ≤ (meaning false [root]).down.length + 1) (hd : base.down ≠ []) :
    ∃ q p, meaning false [q] = base ∧ pageFile false root isDir req = .load p ∧
      meaning false [p] = ⟨.root, 0, pageName (isDir q) (OpenEnd false req) base.down⟩ := by
  obtain ⟨q, p, h1, h2, h3⟩ := page_core root req isDir ht hp (by rw [pages_meaning]; simpa using hu) (ups_of_root ha)
    base hbase hd
  rw [if_pos ha] at h3
  exact ⟨q, p, h1, h2, h3⟩

example : tame false [lit "/srv"] = true ∧ (meaning false [lit "/srv"]).anchor = .root ∧
    (parse false (lit "../x/../b")).1 = none ∧
    from_ (meaning false [lit "/srv", lit "pages"]) (meaning false [lit "../x/../b"]).ups (meaning false [lit "../x/../b"]).down =
      ⟨.root, 0, [lit "srv", lit "b"]⟩ ∧
    pageFile false (lit "/srv") (fun _ => false) (lit "../x/../b") = .load (lit "/srv/b.html") := by decide +kernel

/-- **C84**: a request that never climbs above the folder of pages is answered from inside it, if that is a directory.
Missing: requests that climb, for which this is false (`C84_escape`). -/
theorem C84_inside_partial (root req : List Byte) (isDir : List Byte → Bool) (ht : tame false [root] = true)
    (ha : (meaning false [root]).anchor = .root) (hp : (parse false req).1 = none)
    (hdir : ∀ q, meaning false [q] = meaning false [root, lit "pages"] → isDir q = true)
    (hu : (meaning false [req]).ups = 0) :
    ∃ p, pageFile false root isDir req = .load p ∧ Inside (meaning false [root, lit "pages"]) (meaning false [p]) := by
  have hm := pages_meaning root
  have h0 := ups_of_root ha
  have hb : from_ (meaning false [root, lit "pages"]) (meaning false [req]).ups (meaning false [req]).down =
      ⟨.root, 0, (meaning false [root, lit "pages"]).down ++ (meaning false [req]).down⟩ := by
    rw [hu]
    unfold from_
    rw [Nat.sub_zero, List.take_length, hm]
    dsimp only
    rw [ha, h0]
  obtain ⟨q, p, h1, h2, h3⟩ := C84_page_partial root req isDir ht ha hp _ rfl (by omega) (by rw [hb, hm]; simp)
  refine ⟨p, h2, ?_⟩
  rw [hb] at h1 h3
  dsimp only at h3
  rw [h3]
  refine ⟨?_, ?_, ?_⟩
  · rw [hm]; exact ha.symm
  · rw [hm]; exact h0.symm
  · dsimp only
    unfold pageName
    split
    · rw [List.append_assoc]; exact List.prefix_append _ _
    · next hnd =>
      split
      · rw [List.append_assoc]; exact List.prefix_append _ _
      · by_cases hrd : (meaning false [req]).down = []
        · exfalso
          refine hnd (hdir q ?_)
          rw [h1, hrd, List.append_nil, hm]
          dsimp only
          rw [ha, h0]
        · rw [List.dropLast_append_of_ne_nil hrd, List.append_assoc]
          exact List.prefix_append _ _

example : tame false [lit "/srv"] = true ∧ (meaning false [lit "/srv"]).anchor = .root ∧
    (parse false (lit "a/../b")).1 = none ∧ (meaning false [lit "a/../b"]).ups = 0 ∧
    (∀ q, meaning false [q] = meaning false [lit "/srv", lit "pages"] → (fun _ => true) q = true) :=
  ⟨by decide, by decide, by decide, by decide, fun _ _ => rfl⟩

/-- **C84** fails for requests that climb: every HTML file next to the folder of pages can be had. -/
theorem C84_escape (root name : List Byte) (ht : tame false [root] = true) (ha : (meaning false [root]).anchor = .root)
    (hn : name ≠ []) (hs : 47 ∉ name) (hd : name ≠ [46] ∧ name ≠ [46, 46]) :
    ∃ p, pageFile false root (fun _ => false) (lit "../" ++ name) = .load p ∧
      meaning false [p] = ⟨.root, 0, (meaning false [root]).down ++ [name ++ lit ".html"]⟩ ∧
      ¬ Inside (meaning false [root, lit "pages"]) (meaning false [p]) := by
  have hns : ∀ x ∈ name, ¬ Path.Spec.Sep false x := by
    intro x hx hsx
    rcases hsx with rfl | ⟨h, _⟩
    · exact hs hx
    · cases h
  have hpar : parse false (lit "../" ++ name) = (none, lit "../" ++ name) := rfl
  have hm : meaning false [lit "../" ++ name] = ⟨.here, 1, [name]⟩ := by
    show follow false ⟨.here, 0, []⟩ (lit "../" ++ name) = _
    unfold follow
    rw [hpar]
    dsimp only
    rw [show lit "../" ++ name = [46, 46] ++ 47 :: name from rfl,
      Path.names_append (by simp) (by decide) (Or.inl rfl), Path.names_single hn hns]
    simp [Loc.step, Anchor.isRoot, hd.1, hd.2]
  have hpm := pages_meaning root
  have h0 := ups_of_root ha
  have hb : from_ (meaning false [root, lit "pages"]) 1 [name] = ⟨.root, 0, (meaning false [root]).down ++ [name]⟩ := by
    unfold from_
    rw [hpm]
    dsimp only
    rw [ha, h0, List.length_append, show [lit "pages"].length = 1 from rfl, Nat.add_sub_cancel, List.take_left]
  obtain ⟨q, p, h1, h2, h3⟩ := C84_page_partial root (lit "../" ++ name) (fun _ => false) ht ha (by rw [hpar]) _ rfl
    (by rw [hm]; dsimp only; omega) (by rw [hm, hb]; simp)
  refine ⟨p, h2, ?_⟩
  have hoe : ¬ OpenEnd false (lit "../" ++ name) := by
    intro h
    obtain ⟨init, c, rfl⟩ : ∃ init c, name = init ++ [c] := ⟨_, _, (List.dropLast_concat_getLast hn).symm⟩
    unfold OpenEnd at h
    rw [← List.append_assoc, List.getLast?_concat] at h
    exact hns c (by simp) h
  have e : meaning false [p] = ⟨.root, 0, (meaning false [root]).down ++ [name ++ lit ".html"]⟩ := by
    rw [h3, hm, hb]
    simp only [pageName, decide_eq_false hoe, Bool.false_eq_true, ↓reduceIte, List.dropLast_concat, List.getLast?_concat,
      Option.getD_some]
  refine ⟨e, ?_⟩
  rw [e, hpm]
  rintro ⟨_, _, h⟩
  dsimp only at h
  rw [List.prefix_append_right_inj, List.cons_prefix_cons] at h
  have := congrArg (fun l => l.getLast?) h.1
  simp only [List.getLast?_append, show (lit ".html").getLast? = some 108 from rfl, Option.some_or] at this
  revert this
  decide

example : pageFile false (lit "/srv") (fun _ => false) (lit "../drafts") = .load (lit "/srv/drafts.html") := by
  decide +kernel

/-- **C84** fails for a relative root: the folder of pages is looked up twice, so that pages are sought in
`root/pages/root/pages`. -/
theorem C84_relative_root (root req : List Byte) (isDir : List Byte → Bool) (ht : tame false [root] = true)
    (ha : (meaning false [root]).anchor = .here) (h0 : (meaning false [root]).ups = 0)
    (hp : (parse false req).1 = none) (hu : (meaning false [req]).ups = 0) :
    ∃ q p, meaning false [q] =
        ⟨.here, 0, (meaning false [root]).down ++ [lit "pages"] ++ (meaning false [req]).down⟩ ∧
      pageFile false root isDir req = .load p ∧
      meaning false [p] = ⟨.here, 0, (meaning false [root]).down ++ [lit "pages"] ++
        pageName (isDir q) (OpenEnd false req)
          ((meaning false [root]).down ++ [lit "pages"] ++ (meaning false [req]).down)⟩ := by
  have hm := pages_meaning root
  have hb : from_ (meaning false [root, lit "pages"]) (meaning false [req]).ups (meaning false [req]).down =
      ⟨.here, 0, (meaning false [root]).down ++ [lit "pages"] ++ (meaning false [req]).down⟩ := by
    rw [hu]
    unfold from_
    rw [Nat.sub_zero, List.take_length, hm]
    dsimp only
    rw [ha, h0]
  obtain ⟨q, p, h1, h2, h3⟩ := page_core root req isDir ht hp (by rw [hu]; exact Nat.zero_le _) h0 _ rfl
    (by rw [hb]; simp)
  rw [if_neg (by rw [ha]; simp), hb, hm] at h3
  exact ⟨q, p, by rw [h1, hb], h2, h3⟩

example : tame false [lit "data"] = true ∧ (meaning false [lit "data"]).anchor = .here ∧
    pageFile false (lit "data") (fun _ => false) (lit "a") = .load (lit "data/pages/data/pages/a.html") := by
  decide +kernel

/-- **C84** fails on Windows for requests that name a drive: they are not absolute, and win over the root. -/
theorem C84_windows_drive :
    pageFile true (lit "D:\\srv") (fun _ => false) (lit "C:secret") = .load (lit "C:\\secret.html") ∧
    Path.isAbsolute true (lit "C:secret") = false := by decide +kernel

/-! ## The page without its frame -/

theorem trimLeft_skip {m : Byte → Bool} {w : List Byte} (hw : ∀ c ∈ w, m c = true) (x : List Byte) :
    Str.trimLeft m (w ++ x) = Str.trimLeft m x := by
  induction w with
  | nil => rfl
  | cons c w ih =>
    rw [List.cons_append, Str.trimLeft, if_pos (hw c List.mem_cons_self)]
    exact ih (fun d hd => hw d (List.mem_cons_of_mem _ hd))

theorem trim_around {m : Byte → Bool} {w v t : List Byte} (hw : ∀ c ∈ w, m c = true) (hv : ∀ c ∈ v, m c = true)
    (h1 : ∀ c ∈ t.head?, m c = false) (h2 : ∀ c ∈ t.getLast?, m c = false) :
    Str.trim m true true (w ++ t ++ v) = t := by
  unfold Str.trim
  simp only [↓reduceIte]
  rw [List.append_assoc, trimLeft_skip hw]
  cases t with
  | nil =>
    have : Str.trimLeft m v = [] := by
      have := trimLeft_skip hv []
      rw [List.append_nil] at this
      exact this
    rw [List.nil_append, this]
    rfl
  | cons c t =>
    rw [Str.trimLeft_id m _ (by simpa using h1)]
    unfold Str.trimRight
    rw [List.reverse_append, trimLeft_skip (by simpa using hv)]
    exact Str.trimRight_id m _ h2

/-- C84: a page served without its frame is its title, the title again as a heading, and the rest of the page
unchanged; the title is the first line without the white space around it. -/
theorem C84_content_only (before title after body : List Byte)
    (hb : ∀ c ∈ before, Str.isWhite c = true ∧ c ≠ 10) (ha : ∀ c ∈ after, Str.isWhite c = true ∧ c ≠ 10)
    (ht : 10 ∉ title) (h1 : ∀ c ∈ title.head?, Str.isWhite c = false) (h2 : ∀ c ∈ title.getLast?, Str.isWhite c = false) :
    contentOnly (before ++ title ++ after ++ 10 :: body) =
      some (lit "Content-Type: text/html\r\n\r\n" ++ title ++ lit "\n<h1>" ++ title ++ lit "</h1>\n" ++ body) := by
  have hline : IsLine (before ++ title ++ after ++ [10]) := by
    refine ⟨_, rfl, ?_⟩
    intro h
    rcases List.mem_append.1 h with h | h
    · rcases List.mem_append.1 h with h | h
      · exact (hb 10 h).2 rfl
      · exact ht h
    · exact (ha 10 h).2 rfl
  have e : before ++ title ++ after ++ 10 :: body = (before ++ title ++ after ++ [10]) ++ body := by simp
  unfold contentOnly
  rw [if_neg (by simp)]
  unfold pageParts
  rw [e, Web.readLine_line hline]
  dsimp only
  rw [show before ++ title ++ after ++ [10] = before ++ title ++ (after ++ [10]) by simp,
    trim_around (fun c hc => (hb c hc).1) (by
      intro c hc
      rcases List.mem_append.1 hc with hc | hc
      · exact (ha c hc).1
      · rw [List.mem_singleton.1 hc]; decide) h1 h2]

example : contentOnly (lit " My page \n<p>Text") =
    some (lit "Content-Type: text/html\r\n\r\nMy page\n<h1>My page</h1>\n<p>Text") ∧
    contentOnly [] = none := by decide +kernel

end Verif.Docs

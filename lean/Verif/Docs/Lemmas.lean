import Verif.Docs.Spec
import Verif.Markdown.PropsHtml

/-! # Lemmas about the table of contents -/

namespace Verif.Docs

open Verif Spec
open Verif.Markdown (lit)
open Verif.Markdown.Spec (Dom Reads Attrs elements attributes)

/-! ## The index -/

theorem find_put (key k : List Byte) (way : Way) (index : Index) :
    (index.put k way).find key = if k = key then some way else index.find key := by
  induction index with
  | nil => simp [Index.put, Index.find]
  | cons e rest ih =>
    obtain ⟨k', n⟩ := e
    rw [Index.put]
    by_cases h : k' = k
    · subst h
      rw [if_pos rfl]
      simp only [Index.find]
      split <;> rfl
    · rw [if_neg h]
      simp only [Index.find]
      rw [ih]
      by_cases h2 : k' = key
      · subst h2
        rw [if_pos rfl, if_pos rfl, if_neg (fun e => h e.symm)]
      · rw [if_neg h2, if_neg h2]

/-- The last of the listed entries with that link, or else the one found before. -/
def lastOr (key : List Byte) (l : List (Way × List Byte)) (before : Option Way) : Option Way :=
  match ((l.filter (fun e => e.2 = key)).getLast?) with
  | some e => some e.1
  | none => before

theorem lastOr_append (key : List Byte) (l m : List (Way × List Byte)) (b : Option Way) :
    lastOr key (l ++ m) b = lastOr key m (lastOr key l b) := by
  unfold lastOr
  rw [List.filter_append, List.getLast?_append]
  cases (m.filter (fun e => e.2 = key)).getLast? <;> rfl

theorem lastOr_cons (key : List Byte) (w : Way) (k : List Byte) (l : List (Way × List Byte)) (b : Option Way) :
    lastOr key ((w, k) :: l) b = lastOr key l (if k = key then some w else b) := by
  rw [show (w, k) :: l = [(w, k)] ++ l from rfl, lastOr_append]
  congr 1
  unfold lastOr
  by_cases h : k = key <;> simp [h]

mutual
theorem find_populate (key : List Byte) (hk : key ≠ []) (index : Index) (way : Way) : ∀ c : Contents,
    (populate index way c).find key = lastOr key (listed way c) (index.find key)
  | .mk title link children => by
    rw [populate, listed, lastOr_cons, find_populateAll key hk]
    congr 1
    by_cases h : link = []
    · subst h
      rw [if_neg (by simp), if_neg (fun e => hk e.symm)]
    · rw [if_pos h, find_put]
theorem find_populateAll (key : List Byte) (hk : key ≠ []) (index : Index) (way : Way) (i : Nat) :
    ∀ cs : List Contents, (populateAll index way i cs).find key = lastOr key (listedAll way i cs) (index.find key)
  | [] => by simp [populateAll, listedAll, lastOr]
  | c :: cs => by
    rw [populateAll, listedAll, lastOr_append, find_populateAll key hk, find_populate key hk]
end

theorem target_ne (request : List Byte) : target request ≠ [] := by
  unfold target
  split
  · decide
  · simp [lit]

theorem find_indexOf (contents : List Contents) (request : List Byte) :
    (indexOf contents).find (target request) = chosen contents request := by
  unfold indexOf chosen
  rw [find_populateAll _ (target_ne request)]
  unfold lastOr
  cases ((listedAll [] 0 contents).filter (fun e => e.2 = target request)).getLast? <;> rfl

/-! ## Which entries are open -/

/-- The ways from `w` along `r`, the longest first, without `w` itself. -/
def along (w : Way) : Way → List Way
  | [] => []
  | i :: r => along (w ++ [i]) r ++ [w ++ [i]]

theorem along_last (w r : Way) (x : Nat) : along w (r ++ [x]) = (w ++ r ++ [x]) :: along w r := by
  induction r generalizing w with
  | nil => simp [along]
  | cons i r ih =>
    rw [List.cons_append, along, ih, along]
    simp

theorem chain_along (s : Way) : chain s = along [] s := by
  suffices h : ∀ r : Way, chain r.reverse = along [] r.reverse by simpa using h s.reverse
  intro r
  induction r with
  | nil => simp [chain, along]
  | cons x r ih =>
    rw [List.reverse_cons, along_last, List.nil_append, ← ih]
    cases h : r.reverse ++ [x] with
    | nil => simp at h
    | cons a t => rw [chain, ← h, List.dropLast_concat]

/-- What is left to expand below `w`. -/
def left (sel : Option Way) (w : Way) : List Way :=
  match sel with
  | none => []
  | some s => if w <+: s then along w (s.drop w.length) else []

theorem left_top (sel : Option Way) :
    left sel [] = match sel with
      | some s => chain s
      | none => [] := by
  cases sel with
  | none => rfl
  | some s => simp [left, chain_along]

theorem prefix_snoc_iff (w s : Way) (i : Nat) (h : w <+: s) : (w ++ [i] <+: s) ↔ s[w.length]? = some i := by
  obtain ⟨r, rfl⟩ := h
  rw [List.prefix_append_right_inj]
  cases r with
  | nil => simp
  | cons a r => simp [List.cons_prefix_cons, eq_comm]

theorem expansion_left (sel : Option Way) (w : Way) (i : Nat) :
    expansion (w ++ [i]) (left sel w) =
      (decide (Open sel (w ++ [i])), decide (sel = some (w ++ [i])), left sel (w ++ [i])) := by
  cases sel with
  | none =>
    have h : ¬ Open none (w ++ [i]) := by rintro ⟨_, h, _⟩; cases h
    simp [expansion, left, h]
  | some s =>
    have ho : Open (some s) (w ++ [i]) ↔ w ++ [i] <+: s :=
      ⟨by rintro ⟨_, h, k⟩; cases h; exact k, fun h => ⟨s, rfl, h⟩⟩
    by_cases hw : w <+: s
    · obtain ⟨r, rfl⟩ := hw
      have e : left (some (w ++ r)) w = along w r := by simp [left]
      rw [e]
      cases r with
      | nil =>
        have h1 : ¬ (w ++ [i] <+: w ++ []) := by
          intro h
          have := h.length_le
          simp only [List.append_nil, List.length_append, List.length_cons, List.length_nil] at this
          omega
        simp only [along, expansion, List.getLast?_nil]
        have h2 : ¬ Open (some (w ++ [])) (w ++ [i]) := fun h => h1 (ho.1 h)
        have h3 : left (some (w ++ [])) (w ++ [i]) = [] := by
          simp only [left]
          rw [if_neg h1]
        rw [h3, decide_eq_false h2, decide_eq_false (by simp)]
      | cons j r =>
        simp only [along, expansion, List.getLast?_concat, List.dropLast_concat]
        by_cases hj : j = i
        · subst hj
          have h1 : w ++ [j] <+: w ++ j :: r := ⟨r, by simp⟩
          rw [if_pos rfl, decide_eq_true (ho.2 h1)]
          have h3 : left (some (w ++ j :: r)) (w ++ [j]) = along (w ++ [j]) r := by
            simp only [left]
            rw [if_pos h1]
            congr 1
            rw [show w ++ j :: r = (w ++ [j]) ++ r by simp, List.drop_left]
          rw [h3]
          refine Prod.ext rfl (Prod.ext ?_ rfl)
          cases r with
          | nil => simp [along]
          | cons k r => simp [along]
        · have h1 : ¬ (w ++ [i] <+: w ++ j :: r) := by
            rw [List.prefix_append_right_inj, List.cons_prefix_cons]
            exact fun h => hj h.1.symm
          have h2 : ¬ Open (some (w ++ j :: r)) (w ++ [i]) := fun h => h1 (ho.1 h)
          have h3 : left (some (w ++ j :: r)) (w ++ [i]) = [] := by
            simp only [left]
            rw [if_neg h1]
          rw [if_neg (by simpa using hj), h3, decide_eq_false h2, decide_eq_false (by
            intro h
            have := Option.some.inj h
            simp [hj] at this)]
    · have h1 : ¬ (w ++ [i] <+: s) := fun h => hw ((List.prefix_append w [i]).trans h)
      have e : left (some s) w = [] := by simp only [left]; rw [if_neg hw]
      have h3 : left (some s) (w ++ [i]) = [] := by simp only [left]; rw [if_neg h1]
      rw [e, h3]
      simp only [expansion, List.getLast?_nil]
      rw [decide_eq_false (fun h => h1 (ho.1 h)), decide_eq_false (by
        intro h
        have := Option.some.inj h
        exact hw ⟨[i], this.symm⟩)]

/-! ## The HTML -/

theorem spaced_classes (kids opened selected : Bool) :
    liOpen kids opened selected = lit "<li class=\"" ++ spaced (classes kids opened selected) ++ lit "\">" := by
  cases kids <;> cases opened <;> cases selected <;> decide

theorem resolves_classes (kids opened selected : Bool) :
    Esc.Resolves (spaced (classes kids opened selected)) (spaced (classes kids opened selected)) := by
  apply Markdown.resolves_plain
  cases kids <;> cases opened <;> cases selected <;> decide

theorem resolves_nested (opened : Bool) :
    Esc.Resolves (lit "nested" ++ if opened then lit " active" else [])
      (spaced (["nested"] ++ if opened then ["active"] else [])) := by
  have e : (lit "nested" ++ if opened then lit " active" else []) =
      spaced (["nested"] ++ if opened then ["active"] else []) := by cases opened <;> decide
  rw [e]
  apply Markdown.resolves_plain
  cases opened <;> decide

/-- An element with one attribute. -/
theorem reads_one {name attr : String} {v t body : List Byte} {cs : List Dom} (hn : name ∈ elements)
    (ha : attr ∈ attributes) (hv : Esc.Resolves v t) (hb : Reads body cs) :
    Reads (60 :: (lit name ++ 32 :: (lit attr ++ 61 :: 34 :: (v ++ 34 :: 62 :: (body ++ 60 :: 47 :: (lit name ++ [62]))))))
      [.elem name [(attr, t)] cs] := by
  have := Reads.elem hn (.cons ha hv .nil) hb .nil
  simpa using this

theorem li_reads (kids opened selected : Bool) {t s : List Byte} (hr : Esc.Resolves t s) :
    Reads (liOpen kids opened selected ++ lit "<span>" ++ t ++ lit "</span>" ++ lit "</li>\n")
      [.elem "li" [("class", spaced (classes kids opened selected))] [.elem "span" [] [.text s]]] := by
  have hb : Reads t [.text s] := by
    have := Reads.text hr .nil
    simpa using this
  have h1 := Reads.plain (name := "span") (by decide) hb
  have h2 := (reads_one (name := "li") (attr := "class") (by decide) (by decide)
    (resolves_classes kids opened selected) h1).line
  rw [spaced_classes]
  generalize spaced (classes kids opened selected) = cls at h2 ⊢
  simpa [lit] using h2

theorem ul_reads (opened : Bool) {inner : List Byte} {cs : List Dom} (h : Reads inner cs) :
    Reads (lit "<ul class=\"nested" ++ (if opened then lit " active" else []) ++ lit "\">\n" ++ inner ++ lit "</ul>\n")
      [.elem "ul" [("class", spaced (["nested"] ++ if opened then ["active"] else []))] cs] := by
  have h2 := (reads_one (name := "ul") (attr := "class") (by decide) (by decide)
    (resolves_nested opened) (Reads.newline h)).line
  generalize spaced (["nested"] ++ if opened then ["active"] else []) = cls at h2 ⊢
  cases opened <;> simpa [lit] using h2

theorem a_reads {link href body : List Byte} {cs : List Dom} (hl : Esc.Resolves link href) (h : Reads body cs) :
    Reads (lit "<a href=\"" ++ link ++ lit "\">" ++ body ++ lit "</a>") [.elem "a" [("href", href)] cs] := by
  have h2 := reads_one (name := "a") (attr := "href") (by decide) (by decide) hl h
  simpa [lit] using h2

mutual
/-- All links of an entry and those below it. -/
def linksOf : Contents → List (List Byte)
  | .mk _ link children => link :: linksOfAll children
/-- The same for several. -/
def linksOfAll : List Contents → List (List Byte)
  | [] => []
  | c :: cs => linksOf c ++ linksOfAll cs
end

mutual
theorem listed_links (way : Way) : ∀ c : Contents, (listed way c).map (·.2) = linksOf c
  | .mk title link children => by rw [listed, linksOf, List.map_cons, listedAll_links]
theorem listedAll_links (way : Way) (i : Nat) : ∀ cs : List Contents, (listedAll way i cs).map (·.2) = linksOfAll cs
  | [] => rfl
  | c :: cs => by rw [listedAll, linksOfAll, List.map_append, listed_links, listedAll_links]
end

mutual
theorem dump_reads (shown href : List Byte → List Byte)
    (hs : ∀ s, ∃ o, Esc.xmlEscape 0 s = some o ∧ Esc.Resolves o (shown s)) (sel : Option Way) (w : Way) (i : Nat) :
    ∀ c : Contents, (∀ l ∈ linksOf c, l ≠ [] → Esc.Resolves l (href l)) →
      ∃ out, dump (w ++ [i]) (left sel w) c = some out ∧ Reads out (entryDom shown href sel (w ++ [i]) c)
  | .mk title link children => by
    intro hl
    obtain ⟨t, ht, hr⟩ := hs title
    obtain ⟨inner, hi, hri⟩ := dumpAll_reads shown href hs sel (w ++ [i]) 0 children
      (fun l h => hl l (by rw [linksOf]; exact List.mem_cons_of_mem _ h))
    rw [dump, expansion_left]
    dsimp only
    rw [ht, hi]
    refine ⟨_, rfl, ?_⟩
    rw [entryDom]
    have h1 := li_reads (!children.isEmpty) (decide (Open sel (w ++ [i]))) (decide (sel = some (w ++ [i]))) hr
    have h3 := ul_reads (decide (Open sel (w ++ [i]))) hri
    simp only [decide_eq_true_eq] at h3 ⊢
    have h2 := hl link (by rw [linksOf]; exact List.mem_cons_self)
    by_cases hlk : link = [] <;> by_cases hch : children = []
    · simp only [hlk, hch, ne_eq, not_true_eq_false, ↓reduceIte, List.isEmpty_nil, Bool.not_true, Bool.false_eq_true,
        List.append_nil, List.nil_append] at h1 ⊢
      exact h1
    · have e : children.isEmpty = false := by simpa using hch
      simp only [hlk, hch, e, ne_eq, not_true_eq_false, ↓reduceIte, Bool.not_false,
        List.append_nil, List.nil_append] at h1 ⊢
      exact h1.append h3
    · simp only [hlk, hch, ne_eq, not_false_eq_true, ↓reduceIte, List.isEmpty_nil, Bool.not_true, Bool.false_eq_true,
        List.append_nil] at h1 ⊢
      have := a_reads (h2 hlk) h1
      simpa only [List.append_assoc] using this
    · have e : children.isEmpty = false := by simpa using hch
      simp only [hlk, hch, e, ne_eq, not_false_eq_true, ↓reduceIte, Bool.not_false] at h1 ⊢
      have := (a_reads (h2 hlk) h1).append h3
      simp only [List.append_assoc, List.singleton_append] at this ⊢
      exact this
theorem dumpAll_reads (shown href : List Byte → List Byte)
    (hs : ∀ s, ∃ o, Esc.xmlEscape 0 s = some o ∧ Esc.Resolves o (shown s)) (sel : Option Way) (w : Way) (i : Nat) :
    ∀ cs : List Contents, (∀ l ∈ linksOfAll cs, l ≠ [] → Esc.Resolves l (href l)) →
      ∃ out, dumpAll w (left sel w) i cs = some out ∧ Reads out (entriesDom shown href sel w i cs)
  | [] => fun _ => ⟨[], rfl, by rw [entriesDom]; exact .nil⟩
  | c :: cs => by
    intro hl
    obtain ⟨a, ha, hra⟩ := dump_reads shown href hs sel w i c
      (fun l h => hl l (by rw [linksOfAll]; exact List.mem_append_left _ h))
    obtain ⟨b, hb, hrb⟩ := dumpAll_reads shown href hs sel w (i + 1) cs
      (fun l h => hl l (by rw [linksOfAll]; exact List.mem_append_right _ h))
    rw [dumpAll, ha, hb, entriesDom]
    exact ⟨_, rfl, hra.append hrb⟩
end

/-! ## Quotes -/

theorem count_resolves {o t : List Byte} (h : Esc.Resolves o t) : o.count 34 = 0 := by
  rw [List.count_eq_zero]
  induction h with
  | nil => simp
  | other c h1 h2 h3 h4 _ ih =>
    rw [List.mem_cons, not_or]
    exact ⟨fun e => h4 e.symm, ih⟩
  | lt _ ih | gt _ ih | quot _ ih | amp _ ih => simp [ih]

theorem count_attrs {o : List Byte} {as : List (String × List Byte)} (h : Attrs o as) : o.count 34 % 2 = 0 := by
  induction h with
  | nil => rfl
  | @cons name v t o as hn hv _ ih =>
    have h1 : (lit name).count 34 = 0 := by
      revert hn; revert name; decide
    simp only [List.count_cons, List.count_append, count_resolves hv, h1, beq_self_eq_true, ↓reduceIte]
    simp
    omega

/-- A fragment that can be read has an even number of quotes. -/
theorem count_reads {o : List Byte} {ds : List Dom} (h : Reads o ds) : o.count 34 % 2 = 0 := by
  induction h with
  | nil => rfl
  | newline _ ih => simpa [List.count_cons] using ih
  | text hv _ ih => rw [List.count_append, count_resolves hv]; simpa using ih
  | space _ ih => rw [List.count_append]; simpa [lit] using ih
  | @elem name a as body cs o ds hn ha _ _ ih1 ih2 =>
    have h1 : (lit name).count 34 = 0 := by
      revert hn; revert name; decide
    have h2 := count_attrs ha
    simp only [List.count_cons, List.count_append, h1]
    simp
    omega

end Verif.Docs

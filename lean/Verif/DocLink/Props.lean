import Verif.DocLink.Lemmas
/-!
# Links from documentation to classes and members — C93
-/
namespace Verif.DocLink
open Verif Spec

/-! ## Helpers -/

theorem words_length {s : List Byte} {ws : List (List Byte)} (h : Str.Words 58 s ws) : ∀ w ∈ ws, w.length ≤ s.length := by
  induction h with
  | gap k => simp
  | word k w rest ws _ _ _ _ ih =>
    intro v hv
    rw [List.length_append, List.length_append]
    rcases List.mem_cons.1 hv with rfl | hv
    · omega
    · have := ih v hv
      omega

theorem endsWith_iff (s t : List Byte) : Str.endsWith s t = true ↔ ∃ l, s = l ++ t := by
  unfold Str.endsWith
  by_cases h : t.length > s.length
  · rw [if_pos h]
    refine ⟨fun h => (nomatch h), ?_⟩
    rintro ⟨l, rfl⟩
    rw [List.length_append] at h
    omega
  · rw [if_neg h, beq_iff_eq]
    constructor
    · intro he
      exact ⟨s.take (s.length - t.length), by conv => lhs; rw [← List.take_append_drop (s.length - t.length) s, he]⟩
    · rintro ⟨l, rfl⟩
      simp

theorem bare_text {text bare : List Byte} (h : Bare text bare) :
    (if Str.endsWith text [40, 41] then text.take (text.length - 2) else text) = bare := by
  rcases h with rfl | ⟨rfl, h⟩
  · rw [if_pos ((endsWith_iff _ _).2 ⟨bare, rfl⟩)]
    simp
  · rw [if_neg fun he => ?_]
    obtain ⟨l, hl⟩ := (endsWith_iff _ _).1 he
    exact h l hl

theorem startsWith_colon (s : List Byte) : Str.startsWith s [58] = true ↔ s.head? = some 58 := by
  unfold Str.startsWith
  cases s with
  | nil => simp
  | cons c cs => simp

theorem noisy_iff (w : World) (forClass : Option Nat) (group : List Nat) (e : Nat) :
    shouldShowLink w forClass group e = true ↔ ¬ Noisy w forClass group e := by
  unfold shouldShowLink Noisy
  by_cases h : some e = forClass
  · rw [if_pos h]
    simp [← h]
  · rw [if_neg h]
    have : ¬ forClass = some e := fun h' => h h'.symm
    simp [this, List.any_eq]

/-! ## Names -/

/-- **What a name means.**  Looking up a qualified name comes to an end and gives exactly what the name means: its first
part is looked for in the scope and then outwards, the other parts are followed down from there. -/
theorem C93_lookup {w : World} {depth : Nat → Nat} (hw : Wf w depth) {fuel s : Nat} (hf : depth s < fuel)
    {comps : List (List Byte)} (hc : ∀ n ∈ comps, n.length < 2 ^ 31) :
    ∃ r, lookupChain w fuel s comps = some r ∧ ∀ e, r = some e ↔ Means w s comps e :=
  lookupChain_spec hw hf hc

/-- An example: the global scope 0 with a function `f`, the namespace `n` (1) and the class `A` (2) in it; `A` has the
member `x` (3) and the class `B` (4), derived from `A`, with a member `y` (5) and a second class called `x` (6) with a
member `z` (7); and `f` is 8. -/
def demo : World
  | 0 => ⟨none, .namespace, [], [], [8, 1]⟩
  | 1 => ⟨some 0, .namespace, [110], [], [2]⟩
  | 2 => ⟨some 1, .class, [65], [], [4, 3]⟩
  | 3 => ⟨some 2, .member, [120], [], []⟩
  | 4 => ⟨some 2, .class, [66], [[65]], [6, 5]⟩
  | 5 => ⟨some 4, .member, [121], [], []⟩
  | 6 => ⟨some 4, .class, [120], [], [7]⟩
  | 7 => ⟨some 6, .member, [122], [], []⟩
  | 8 => ⟨some 0, .member, [102], [], []⟩
  | _ => ⟨none, .namespace, [], [], []⟩

theorem demo_wf : Wf demo fun e => e where
  up s p h := by
    rcases s with _ | _ | _ | _ | _ | _ | _ | _ | _ | s <;> simp [demo] at h <;> omega
  sorted s := by
    rcases s with _ | _ | _ | _ | _ | _ | _ | _ | _ | s <;> simp only [demo] <;> decide
  short e := by
    rcases e with _ | _ | _ | _ | _ | _ | _ | _ | _ | e <;> simp [demo]

/-- In the class `A`, `B::x::z` is the member of the inner class, and `n::A::x` is the member of `A`; `x` in `B` is the
class, and `f::x` is nothing. -/
example : lookupChain demo 10 2 [[66], [120], [122]] = some (some 7) ∧
    lookupChain demo 10 2 [[110], [65], [120]] = some (some 3) ∧ lookupChain demo 10 4 [[120]] = some (some 6) ∧
    lookupChain demo 10 4 [[102], [120]] = some none := by decide

example : Means demo 4 [[110], [65], [120]] 3 :=
  ⟨[110], [[65], [120]], 1, rfl,
    .up (p := 2) (by unfold Lacks; decide) rfl (.up (p := 1) (by unfold Lacks; decide) rfl
      (.up (p := 0) (by unfold Lacks; decide) rfl (.here ⟨[8], [], rfl, rfl, by decide⟩))),
    .cons (.inl rfl) ⟨[], [], rfl, rfl, by decide⟩ (.cons (.inr rfl) ⟨[4], [], rfl, rfl, by decide⟩ .nil)⟩

/-- **One or more colons** make no difference: a text is taken as the words between them. -/
theorem C93_colons (w : World) (fuel root : Nat) {t t' : List Byte} {ws : List (List Byte)} (h : Str.Words 58 t ws)
    (h' : Str.Words 58 t' ws) : resolveClassScope w fuel root t = resolveClassScope w fuel root t' := by
  unfold resolveClassScope
  rw [(Str.C16_split_exact 58 t ws).2 h, (Str.C16_split_exact 58 t' ws).2 h']

/-- `n::A`, `n:A` and `::n:::A:` are all the class `A`. -/
example : resolveClassScope demo 10 0 [110, 58, 58, 65] = some (some 2) ∧
    resolveClassScope demo 10 0 [110, 58, 65] = some (some 2) ∧
    resolveClassScope demo 10 0 [58, 58, 110, 58, 58, 58, 65, 58] = some (some 2) := by decide

theorem path_snoc {w : World} : ∀ {ns : List (List Byte)} {x e : Nat} {n : List Byte}, Path w x (ns ++ [n]) e →
    ∃ y, Path w x ns y ∧ Declares w y n e
  | [], x, e, n, h => by
    cases h with
    | cons _ hd hp =>
      cases hp
      exact ⟨x, .nil, hd⟩
  | m :: ns, x, e, n, h => by
    cases h with
    | cons hk hd hp =>
      obtain ⟨y, h1, h2⟩ := path_snoc hp
      exact ⟨y, .cons hk hd h1, h2⟩

theorem qualified_of_path {w : World} {root : Nat} (hroot : (w root).parent = none)
    (hpar : ∀ s, ∀ c ∈ (w s).children, (w c).parent = some s) :
    ∀ (fuel : Nat) (ns : List (List Byte)) (e : Nat), ns ≠ [] → ns.length ≤ fuel → Path w root ns e →
      qualifiedID w fuel e = some (Str.join [58, 58] ns)
  | 0, ns, e, hne, hl, _ => by
    cases ns with
    | nil => exact absurd rfl hne
    | cons _ _ => simp at hl
  | fuel + 1, ns, e, hne, hl, h => by
    rcases List.eq_nil_or_concat ns with rfl | ⟨ns, n, rfl⟩
    · exact absurd rfl hne
    rw [List.concat_eq_append] at h hl ⊢
    obtain ⟨y, h1, h2⟩ := path_snoc h
    obtain ⟨h3, h4⟩ := declares_mem h2
    rw [qualifiedID, hpar y e h3]
    dsimp only
    rcases List.eq_nil_or_concat ns with rfl | ⟨ns', m, rfl⟩
    · cases h1
      rw [hroot]
      dsimp only
      rw [h4]
      simp [Str.join, Str.joinLoop]
    · rw [List.concat_eq_append] at h1 hl ⊢
      obtain ⟨z, k1, k2⟩ := path_snoc h1
      rw [hpar z y (declares_mem k2).1]
      dsimp only
      rw [qualified_of_path hroot hpar fuel (ns' ++ [m]) y (by simp) (by simp at hl ⊢; omega) h1, h4]
      unfold Str.join
      cases ns' with
      | nil => simp [Str.joinLoop]
      | cons a ns' => simp [Str.joinLoop, Str.joinLoop_false]

theorem words_join {ns : List (List Byte)} (hne : ∀ n ∈ ns, n ≠ []) (hs : ∀ n ∈ ns, (58 : Byte) ∉ n) :
    Str.Words 58 (Str.join [58, 58] ns) ns := by
  unfold Str.join
  cases ns with
  | nil => exact .gap 0
  | cons w ws =>
    simp only [Str.joinLoop, ↓reduceIte, List.nil_append]
    rw [Str.joinLoop_false]
    have H : ∀ (ws : List (List Byte)) k w, (∀ v ∈ w :: ws, v ≠ []) → (∀ v ∈ w :: ws, (58 : Byte) ∉ v) →
        Str.Words 58 (List.replicate k 58 ++ (w ++ ws.flatMap (fun c => [58, 58] ++ c))) (w :: ws) := by
      intro ws
      induction ws with
      | nil =>
        intro k w h1 h2
        exact .word k w [] [] (h1 w (by simp)) (h2 w (by simp)) (Or.inl rfl) (.gap 0)
      | cons v vs ih =>
        intro k w h1 h2
        refine .word k w _ (v :: vs) (h1 w (by simp)) (h2 w (by simp)) (Or.inr (by simp)) ?_
        have := ih 2 v (fun u hu => h1 u (List.mem_cons_of_mem _ hu)) (fun u hu => h2 u (List.mem_cons_of_mem _ hu))
        simpa [List.replicate] using this
    exact H ws 0 w hne hs

/-- **The full name leads back.**  The full name of anything that can be reached from the global scope by names is found
again there. -/
theorem C93_roundtrip {w : World} {depth : Nat → Nat} (hw : Wf w depth) {root : Nat} (hroot : (w root).parent = none)
    (hpar : ∀ s, ∀ c ∈ (w s).children, (w c).parent = some s) {ns : List (List Byte)} {e : Nat} (hp : Path w root ns e)
    (hns : ns ≠ []) (hne : ∀ n ∈ ns, n ≠ []) (hs : ∀ n ∈ ns, (58 : Byte) ∉ n)
    {fuel : Nat} (hf : depth root < fuel) (hl : ns.length ≤ fuel) :
    ∃ text, qualifiedID w fuel e = some text ∧ resolveClassScope w fuel root text = some (some e) := by
  refine ⟨_, qualified_of_path hroot hpar fuel ns e hns hl hp, ?_⟩
  unfold resolveClassScope
  rw [(Str.C16_split_exact 58 _ ns).2 (words_join hne hs)]
  have hshort : ∀ (ns : List (List Byte)) (x : Nat), Path w x ns e → ∀ n ∈ ns, n.length < 2 ^ 31 := by
    intro ns
    induction ns with
    | nil => simp
    | cons m ms ih =>
      intro x hp n hn
      cases hp with
      | cons _ hd hp =>
        rcases List.mem_cons.1 hn with rfl | hn
        · rw [← (declares_mem hd).2]
          exact hw.short _
        · exact ih _ hp n hn
  obtain ⟨r, h1, h2⟩ := C93_lookup hw hf (hshort ns root hp)
  rw [h1]
  cases hp with
  | nil => exact absurd rfl hns
  | cons hk hd hp => rw [(h2 e).2 ⟨_, _, _, rfl, .here hd, hp⟩]

/-- `n::A::B::x` is the inner class. -/
example : qualifiedID demo 10 6 = some [110, 58, 58, 65, 58, 58, 66, 58, 58, 120] ∧
    resolveClassScope demo 10 0 [110, 58, 58, 65, 58, 58, 66, 58, 58, 120] = some (some 6) ∧
    (∀ s < 9, ∀ c ∈ (demo s).children, (demo c).parent = some s) ∧ Path demo 0 [[110], [65], [66], [120]] 6 := by
  refine ⟨by decide, by decide, by decide, ?_⟩
  exact .cons (.inl rfl) ⟨[8], [], rfl, rfl, by decide⟩ (.cons (.inl rfl) ⟨[], [], rfl, rfl, by decide⟩
    (.cons (.inr rfl) ⟨[], [3], rfl, rfl, by decide⟩ (.cons (.inr rfl) ⟨[], [5], rfl, rfl, by decide⟩ .nil)))

/-! ## Links -/

/-- **Where a link leads.**  A link to an entity is there exactly if the entity has a page, or is a member of a class
that has one, and leads there; so nothing declared outside of classes, other than classes, ever has a link unless it has a
page itself. -/
theorem C93_destination {w : World} {depth : Nat → Nat} (hw : Wf w depth) {pages : Pages} (hp : PagesWf w pages) (e : Nat)
    (hm : (w e).kind = .member → (w e).parent ≠ none) :
    ∃ d, getLinkDestination w pages e = some d ∧ ∀ dest, (d = dest ∧ d ≠ []) ↔ LinkTo w pages e dest := by
  unfold getLinkDestination LinkTo
  by_cases hk : (w e).kind = .member
  · rw [if_pos hk]
    cases hq : (w e).parent with
    | none => exact absurd hq (hm hk)
    | some p =>
      dsimp only
      by_cases hc : (w p).kind = .class
      · rw [if_neg (by simp [hc])]
        refine ⟨_, rfl, fun dest => ?_⟩
        rcases pages_split w p (35 :: (w e).name) hw.short pages hp.sorted with ⟨d, h1, h2⟩ | ⟨h1, h2⟩
        · rw [h2]
          constructor
          · rintro ⟨rfl, -⟩
            exact .inr ⟨hk, p, d, rfl, hc, h1, rfl⟩
          · rintro (⟨h, -⟩ | ⟨-, p', d', e1, -, e3, rfl⟩)
            · exact absurd hk h
            · cases e1
              rw [pageOf_unique h1 e3]
              exact ⟨rfl, by simp⟩
        · rw [h2]
          constructor
          · rintro ⟨-, h⟩
            exact absurd rfl h
          · rintro (⟨h, -⟩ | ⟨-, p', d', e1, -, ⟨a, b, e3, -⟩, rfl⟩)
            · exact absurd hk h
            · cases e1
              exact absurd rfl (h1 (p, d') (by rw [e3]; simp))
      · rw [if_pos hc]
        refine ⟨_, rfl, fun dest => ⟨fun h => absurd rfl h.2, ?_⟩⟩
        rintro (⟨h, -⟩ | ⟨-, p', d', e1, h, -⟩)
        · exact absurd hk h
        · cases e1
          exact absurd h hc
  · rw [if_neg hk]
    refine ⟨_, rfl, fun dest => ?_⟩
    rcases pages_split w e [] hw.short pages hp.sorted with ⟨d, h1, h2⟩ | ⟨h1, h2⟩
    · rw [h2, List.append_nil]
      constructor
      · rintro ⟨rfl, -⟩
        exact .inl ⟨hk, h1⟩
      · rintro (⟨-, h⟩ | ⟨h, -⟩)
        · rw [pageOf_unique h1 h]
          obtain ⟨a, b, h3, -⟩ := h
          exact ⟨rfl, hp.dest (e, dest) (by rw [h3]; simp)⟩
        · exact absurd h hk
    · rw [h2]
      constructor
      · rintro ⟨-, h⟩
        exact absurd rfl h
      · rintro (⟨-, ⟨a, b, e3, -⟩⟩ | ⟨h, -⟩)
        · exact absurd rfl (h1 (e, dest) (by rw [e3]; simp))
        · exact absurd h hk

/-- The class `B` has the page `/B`, `A` has `/A`, and the inner class `x` has `/x`. -/
def demoPages : Pages := [(2, [47, 65]), (4, [47, 66]), (6, [47, 120])]

theorem demo_pages : PagesWf demo demoPages where
  sorted := by decide
  dest := by decide

/-- The member `y` has `/B#y`, the class `A` has `/A`, and the function `f` has no link. -/
example : getLinkDestination demo demoPages 5 = some [47, 66, 35, 121] ∧
    getLinkDestination demo demoPages 2 = some [47, 65] ∧ getLinkDestination demo demoPages 8 = some [] := by decide

theorem tryScopes_spec {w : World} {depth : Nat → Nat} (hw : Wf w depth) {pages : Pages} (hp : PagesWf w pages)
    (hm : ∀ e, (w e).kind = .member → (w e).parent ≠ none) (forClass : Option Nat) (group : List Nat) {fuel : Nat}
    {comps : List (List Byte)} (hc : ∀ n ∈ comps, n.length < 2 ^ 31) :
    ∀ scopes : List Nat, (∀ s ∈ scopes, depth s < fuel) →
      ∃ d, tryScopes w fuel pages forClass group comps scopes = some d ∧ ∀ dest, (d = dest ∧ d ≠ []) ↔
        ∃ e, FirstMeans w scopes comps e ∧ ¬ Noisy w forClass group e ∧ LinkTo w pages e dest
  | [], _ => by
    refine ⟨[], rfl, fun dest => ⟨fun h => absurd rfl h.2, ?_⟩⟩
    rintro ⟨e, ⟨a, s, b, h, -⟩, -⟩
    simp at h
  | s :: rest, hs => by
    rw [tryScopes]
    obtain ⟨r, h1, h2⟩ := C93_lookup hw (hs s List.mem_cons_self) hc
    rw [h1]
    cases r with
    | none =>
      obtain ⟨d, h3, h4⟩ := tryScopes_spec hw hp hm forClass group hc rest fun x hx => hs x (List.mem_cons_of_mem _ hx)
      refine ⟨d, h3, fun dest => (h4 dest).trans ?_⟩
      have hn : ∀ y, ¬ Means w s comps y := fun y hy => nomatch (h2 y).2 hy
      constructor
      · rintro ⟨e, ⟨a, x, b, e1, e2, e3⟩, h⟩
        refine ⟨e, ⟨s :: a, x, b, by rw [e1]; rfl, e2, ?_⟩, h⟩
        intro y hy
        rcases List.mem_cons.1 hy with rfl | hy
        · exact hn
        · exact e3 y hy
      · rintro ⟨e, ⟨a, x, b, e1, e2, e3⟩, h⟩
        cases a with
        | nil =>
          cases e1
          exact absurd e2 (hn e)
        | cons y a =>
          cases e1
          exact ⟨e, ⟨a, x, b, rfl, e2, fun y hy => e3 y (List.mem_cons_of_mem _ hy)⟩, h⟩
    | some e =>
      have he : Means w s comps e := (h2 e).1 rfl
      have hfirst : ∀ e', FirstMeans w (s :: rest) comps e' ↔ e' = e := by
        intro e'
        constructor
        · rintro ⟨a, x, b, e1, e2, e3⟩
          cases a with
          | nil =>
            cases e1
            have := (h2 e').2 e2
            cases this
            rfl
          | cons y a =>
            cases e1
            exact absurd he (e3 s List.mem_cons_self e)
        · rintro rfl
          exact ⟨[], s, rest, rfl, he, by simp⟩
      dsimp only
      by_cases hshow : shouldShowLink w forClass group e = true
      · rw [if_pos hshow]
        obtain ⟨d, h3, h4⟩ := C93_destination hw hp e (hm e)
        refine ⟨d, h3, fun dest => (h4 dest).trans ⟨fun h => ⟨e, (hfirst e).2 rfl, (noisy_iff ..).1 hshow, h⟩, ?_⟩⟩
        rintro ⟨e', h5, -, h6⟩
        rw [(hfirst e').1 h5] at h6
        exact h6
      · rw [if_neg hshow]
        refine ⟨[], rfl, fun dest => ⟨fun h => absurd rfl h.2, ?_⟩⟩
        rintro ⟨e', h5, h6, -⟩
        rw [(hfirst e').1 h5] at h6
        exact absurd ((noisy_iff ..).2 h6) hshow

/-- **Which texts become links, and where to.**  A piece of code in a description, with or without `()` at its end and
not starting with a colon, becomes a link exactly if the name it consists of means something in one of the members
described, or else in the class, if the first such thing is not among those described there themselves, and if there is a
page for it; the link leads to that page. -/
theorem C93_span {w : World} {depth : Nat → Nat} (hw : Wf w depth) {pages : Pages} (hp : PagesWf w pages)
    (hm : ∀ e, (w e).kind = .member → (w e).parent ≠ none) (forClass : Option Nat) (group : List Nat) {fuel : Nat}
    (hf : ∀ s ∈ group ++ forClass.toList, depth s < fuel) {text bare : List Byte} (hb : Bare text bare)
    (hl : bare.length < 2 ^ 31) {comps : List (List Byte)} (hc : Str.Words 58 bare comps) (hs : bare.head? ≠ some 58) :
    ∃ d, getLinkDestinationFromSpan w fuel pages forClass group text = some d ∧ ∀ dest, (d = dest ∧ d ≠ []) ↔
      ∃ e, FirstMeans w (group ++ forClass.toList) comps e ∧ ¬ Noisy w forClass group e ∧ LinkTo w pages e dest := by
  unfold getLinkDestinationFromSpan
  dsimp only
  rw [bare_text hb, (Str.C16_split_exact 58 bare comps).2 hc]
  by_cases hcs : comps = []
  · rw [if_pos hcs]
    refine ⟨[], rfl, fun dest => ⟨fun h => absurd rfl h.2, ?_⟩⟩
    rintro ⟨e, ⟨a, s, b, -, ⟨n, ns, x, h, -⟩, -⟩, -⟩
    rw [hcs] at h
    cases h
  · rw [if_neg hcs, if_neg fun h => hs ((startsWith_colon bare).1 h)]
    exact tryScopes_spec hw hp hm forClass group
      (fun n hn => Nat.lt_of_le_of_lt (words_length hc n hn) hl) _ hf

/-- In the description of `y` in `B`: `A::x()` is linked with `/A#x`, `x` with the inner class; `B`, which is being
described, and `y` are not linked. -/
example : getLinkDestinationFromSpan demo 10 demoPages (some 4) [5] [65, 58, 58, 120, 40, 41] = some [47, 65, 35, 120] ∧
    getLinkDestinationFromSpan demo 10 demoPages (some 4) [5] [120] = some [47, 120] ∧
    getLinkDestinationFromSpan demo 10 demoPages (some 4) [5] [66] = some [] ∧
    getLinkDestinationFromSpan demo 10 demoPages (some 4) [5] [121] = some [] := by decide

example : (∀ e, (demo e).kind = .member → (demo e).parent ≠ none) ∧ Bare [65, 58, 58, 120, 40, 41] [65, 58, 58, 120] ∧
    Str.Words 58 [65, 58, 58, 120] [[65], [120]] := by
  refine ⟨?_, .inl rfl, (Str.C16_split_exact ..).1 (by decide)⟩
  intro e
  rcases e with _ | _ | _ | _ | _ | _ | _ | _ | _ | e <;> simp [demo]

/-- **A colon in front**, as in `::f`, is a failed assertion, whatever there is, unless the text has no name at all. -/
theorem C93_leading_colon (w : World) (fuel : Nat) (pages : Pages) (forClass : Option Nat) (group : List Nat)
    {text bare : List Byte} (hb : Bare text bare) (hs : bare.head? = some 58) :
    getLinkDestinationFromSpan w fuel pages forClass group text = none ↔ ∃ c ∈ bare, c ≠ 58 := by
  unfold getLinkDestinationFromSpan
  dsimp only
  rw [bare_text hb]
  have key : Str.splitByte 58 bare = [] ↔ ¬ ∃ c ∈ bare, c ≠ 58 := by
    constructor
    · intro h
      rintro ⟨c, hc, hne⟩
      have := (Str.C16_split_exact 58 bare []).1 h
      cases this with
      | gap k => exact hne (List.mem_replicate.1 hc).2
    · intro h
      refine (Str.C16_split_exact 58 bare []).2 ?_
      have : bare = List.replicate bare.length 58 := by
        rw [List.eq_replicate_iff]
        refine ⟨rfl, fun c hc => ?_⟩
        refine Classical.byContradiction fun hne => h ⟨c, hc, hne⟩
      rw [this]
      exact .gap _
  by_cases h : Str.splitByte 58 bare = []
  · rw [if_pos h]
    exact ⟨fun h' => (nomatch h'), fun h' => absurd h' (key.1 h)⟩
  · rw [if_neg h, if_pos ((startsWith_colon bare).2 hs)]
    exact ⟨fun _ => Classical.byContradiction fun hn => h (key.2 hn), fun _ => rfl⟩

example : getLinkDestinationFromSpan demo 10 demoPages (some 4) [5] [58, 58, 102] = none ∧
    getLinkDestinationFromSpan demo 10 demoPages (some 4) [5] [58, 58] = some [] := by decide

/-! ## What is not linked -/

/-- **Hidden.**  A name declared further inside is taken even if the rest of the name is only found further outside: in
`B`, `x::w` is looked for in the class `x` of `B` only, although there is another class `x` with a `w` around it. -/
theorem C93_hidden : ∃ (w : World) (depth : Nat → Nat), Wf w depth ∧ Means w 0 [[120], [119]] 3 ∧
    (w 4).parent = some 0 ∧ ∀ e, ¬ Means w 4 [[120], [119]] e := by
  let w : World := fun
    | 0 => ⟨none, .namespace, [], [], [4, 1]⟩
    | 1 => ⟨some 0, .class, [120], [], [3]⟩
    | 3 => ⟨some 1, .member, [119], [], []⟩
    | 4 => ⟨some 0, .class, [66], [], [5]⟩
    | 5 => ⟨some 4, .class, [120], [], []⟩
    | _ => ⟨none, .namespace, [], [], []⟩
  have hw : Wf w fun e => e := by
    constructor
    · intro s p h
      rcases s with _ | _ | _ | _ | _ | _ | s <;> simp [w] at h <;> omega
    · intro s
      rcases s with _ | _ | _ | _ | _ | _ | s <;> simp only [w] <;> decide
    · intro e
      rcases e with _ | _ | _ | _ | _ | _ | e <;> simp [w]
  refine ⟨w, fun e => e, hw, ?_, rfl, ?_⟩
  · exact ⟨[120], [[119]], 1, rfl, .here ⟨[4], [], rfl, rfl, by decide⟩,
      .cons (.inr rfl) ⟨[], [], rfl, rfl, by decide⟩ .nil⟩
  · obtain ⟨r, h1, h2⟩ := C93_lookup hw (fuel := 9) (s := 4) (by decide) (comps := [[120], [119]]) (by decide)
    have : lookupChain w 9 4 [[120], [119]] = some none := by decide
    rw [this] at h1
    cases h1
    exact fun e he => nomatch (h2 e).2 he

/-- **Base classes are not looked into.**  Whatever the base classes, a name means the same. -/
theorem C93_bases_ignored (w w' : World) (h : ∀ e, (w' e).parent = (w e).parent ∧ (w' e).kind = (w e).kind ∧
    (w' e).name = (w e).name ∧ (w' e).children = (w e).children) (s : Nat) (comps : List (List Byte)) (e : Nat) :
    Means w' s comps e ↔ Means w s comps e := by
  have key : ∀ w w' : World, (∀ e, (w' e).parent = (w e).parent ∧ (w' e).kind = (w e).kind ∧
      (w' e).name = (w e).name ∧ (w' e).children = (w e).children) → Means w s comps e → Means w' s comps e := by
    intro w w' h
    have hd : ∀ {s n e}, Declares w s n e → Declares w' s n e := by
      rintro s n e ⟨a, b, h1, h2, h3⟩
      exact ⟨a, b, by rw [(h s).2.2.2, h1], by rw [(h e).2.2.1, h2], fun x hx => by rw [(h x).2.2.1]; exact h3 x hx⟩
    have hv : ∀ {s n e}, Visible w s n e → Visible w' s n e := by
      intro s n e hv
      induction hv with
      | here h1 => exact .here (hd h1)
      | up h1 h2 _ ih =>
        refine .up ?_ (by rw [(h _).1, h2]) ih
        intro x hx
        rw [(h _).2.2.2] at hx
        rw [(h x).2.2.1]
        exact h1 x hx
    have hp : ∀ {x ns e}, Path w x ns e → Path w' x ns e := by
      intro x ns e hp
      induction hp with
      | nil => exact .nil
      | cons h1 h2 _ ih => exact .cons (by rw [(h _).2.1]; exact h1) (hd h2) ih
    rintro ⟨n, ns, x, rfl, h1, h2⟩
    exact ⟨n, ns, x, rfl, hv h1, hp h2⟩
  exact ⟨key w' w fun e => ⟨(h e).1.symm, (h e).2.1.symm, (h e).2.2.1.symm, (h e).2.2.2.symm⟩, key w w' h⟩

/-- Of two classes, the second derived from the first, which has a member `m`: in the second, `m` has no link, and the
first one's name has to be given. -/
example : let w : World := fun
      | 0 => ⟨none, .namespace, [], [], [1, 2]⟩
      | 1 => ⟨some 0, .class, [65], [], [3]⟩
      | 2 => ⟨some 0, .class, [66], [[65]], []⟩
      | 3 => ⟨some 1, .member, [109], [], []⟩
      | _ => ⟨none, .namespace, [], [], []⟩
    getLinkDestinationFromSpan w 9 [(1, [47, 65])] (some 2) [] [109] = some [] ∧
    getLinkDestinationFromSpan w 9 [(1, [47, 65])] (some 2) [] [65, 58, 58, 109] = some [47, 65, 35, 109] := by decide

/-- **Global functions have no link**, whatever the pages. -/
theorem C93_global_function (w : World) (pages : Pages) (e p : Nat) (hk : (w e).kind = .member)
    (hp : (w e).parent = some p) (hn : (w p).kind = .namespace) : getLinkDestination w pages e = some [] := by
  unfold getLinkDestination
  rw [if_pos hk, hp]
  simp [hn]

example : (demo 8).kind = .member ∧ (demo 8).parent = some 0 ∧ (demo 0).kind = .namespace := by decide

/-- **The second of two** things of the same name is never found, and its full name leads to the first: a class and a
function, say. -/
theorem C93_same_name : ∃ (w : World) (depth : Nat → Nat), Wf w depth ∧
    (∀ s < 3, ∀ c ∈ (w s).children, (w c).parent = some s) ∧ 2 ∈ (w 0).children ∧ (w 2).kind = .class ∧
    qualifiedID w 9 2 = some [65] ∧ resolveClassScope w 9 0 [65] = some (some 1) := by
  refine ⟨fun
    | 0 => ⟨none, .namespace, [], [], [1, 2]⟩
    | 1 => ⟨some 0, .member, [65], [], []⟩
    | 2 => ⟨some 0, .class, [65], [], []⟩
    | _ => ⟨none, .namespace, [], [], []⟩, fun e => e, ⟨?_, ?_, ?_⟩, by decide, by decide, by decide, by decide, by decide⟩
  · intro s p h
    rcases s with _ | _ | _ | s <;> simp at h <;> omega
  · intro s
    rcases s with _ | _ | _ | s <;> simp only <;> decide
  · intro e
    rcases e with _ | _ | _ | e <;> simp

end Verif.DocLink

import Verif.Pylon.ObjSpec
/-!
# Pylon objects — properties C35
-/
namespace Verif.Pylon
open Verif Spec

variable {V : Type}

/-- The index and the array agree. -/
structure Obj.Inv (hash : List Byte → Nat) (o : Obj V) : Prop where
  sound : ∀ e ∈ o.index, ∃ it, o.items[e.2]? = some it ∧ e.1 = hash it.1
  complete : ∀ (i : Nat) it, o.items[i]? = some it → (hash it.1, i) ∈ o.index
  nodup : (o.index.map Prod.snd).Nodup
  keys : (o.items.map Prod.fst).Nodup

theorem find_spec (hash : List Byte → Nat) (key : List Byte) (items : List (List Byte × V)) :
    ∀ (index : List (Nat × Nat)),
      (∀ e ∈ index, ∃ it, items[e.2]? = some it ∧ e.1 = hash it.1) →
      (∃ p h i v, Obj.find hash key items index = some (some p) ∧ index[p]? = some (h, i) ∧
        items[i]? = some (key, v)) ∨
      (Obj.find hash key items index = some none ∧
        ∀ e ∈ index, ∀ it, items[e.2]? = some it → it.1 ≠ key) := by
  intro index
  induction index with
  | nil => intro _; right; exact ⟨rfl, by simp⟩
  | cons e t ih =>
    obtain ⟨h, i⟩ := e
    intro hs
    obtain ⟨it, h1, h2⟩ := hs (h, i) (by simp)
    dsimp only at h1 h2
    have iht := ih (fun e he => hs e (List.mem_cons_of_mem _ he))
    by_cases hk : it.1 = key
    · left
      refine ⟨0, h, i, it.2, ?_, rfl, ?_⟩
      · rw [Obj.find, if_pos (by rw [h2, hk]), h1]; dsimp only; rw [if_pos hk]
      · rw [h1, ← hk]
    · have e : Obj.find hash key items ((h, i) :: t) =
          (Obj.find hash key items t).map (fun r => r.map (· + 1)) := by
        rw [Obj.find]
        split
        · rw [h1]; dsimp only; rw [if_neg hk]
        · rfl
      rw [e]
      rcases iht with ⟨p, h', i', v, f1, f2, f3⟩ | ⟨f1, f2⟩
      · left
        exact ⟨p + 1, h', i', v, by rw [f1]; rfl, by simpa using f2, f3⟩
      · right
        refine ⟨by rw [f1]; rfl, ?_⟩
        intro e he it' hit'
        rcases List.mem_cons.mp he with rfl | he
        · dsimp only at hit'
          rw [h1] at hit'
          cases hit'
          exact hk
        · exact f2 e he it' hit'

theorem lookup_of_get {l : List (List Byte × V)} (hn : (l.map Prod.fst).Nodup) {i : Nat} {k v}
    (h : l[i]? = some (k, v)) : lookup k l = some v := by
  induction l generalizing i with
  | nil => simp at h
  | cons a t ih =>
    obtain ⟨k', v'⟩ := a
    simp only [List.map_cons, List.nodup_cons] at hn
    cases i with
    | zero => simp at h; simp [lookup, h]
    | succ i =>
      simp at h
      rw [lookup, if_neg, ih hn.2 h]
      intro hk
      apply hn.1
      rw [hk]
      exact List.mem_map.mpr ⟨_, List.mem_of_getElem? h, rfl⟩

theorem lookup_none {l : List (List Byte × V)} {k} (h : ∀ p ∈ l, p.1 ≠ k) : lookup k l = none := by
  induction l with
  | nil => rfl
  | cons a t ih =>
    obtain ⟨k', v'⟩ := a
    rw [lookup, if_neg (h (k', v') (by simp)), ih (fun p hp => h p (List.mem_cons_of_mem _ hp))]

theorem assign_of_get {l : List (List Byte × V)} (hn : (l.map Prod.fst).Nodup) {i : Nat} {k v w}
    (h : l[i]? = some (k, w)) : assign k v l = l.set i (k, v) := by
  induction l generalizing i with
  | nil => simp at h
  | cons a t ih =>
    obtain ⟨k', v'⟩ := a
    simp only [List.map_cons, List.nodup_cons] at hn
    cases i with
    | zero => simp at h; simp [assign, h]
    | succ i =>
      simp at h
      rw [assign, if_neg, ih hn.2 h]
      · rfl
      intro hk
      apply hn.1
      rw [hk]
      exact List.mem_map.mpr ⟨_, List.mem_of_getElem? h, rfl⟩

theorem assign_none {l : List (List Byte × V)} {k v} (h : ∀ p ∈ l, p.1 ≠ k) :
    assign k v l = l ++ [(k, v)] := by
  induction l with
  | nil => rfl
  | cons a t ih =>
    obtain ⟨k', v'⟩ := a
    rw [assign, if_neg (h (k', v') (by simp)), ih (fun p hp => h p (List.mem_cons_of_mem _ hp))]
    rfl

theorem forget_of_get {l : List (List Byte × V)} (hn : (l.map Prod.fst).Nodup) {i : Nat} {k w}
    (h : l[i]? = some (k, w)) : forget k l = l.eraseIdx i := by
  induction l generalizing i with
  | nil => simp at h
  | cons a t ih =>
    obtain ⟨k', v'⟩ := a
    simp only [List.map_cons, List.nodup_cons] at hn
    cases i with
    | zero =>
      simp at h
      unfold forget
      rw [List.filter_cons, if_neg (by simp [h.1])]
      rw [List.eraseIdx_cons_zero, List.filter_eq_self]
      intro p hp
      have : p.1 ≠ k' := fun hk => hn.1 (by rw [← hk]; exact List.mem_map.mpr ⟨_, hp, rfl⟩)
      simp only [decide_eq_true_eq, ne_eq]
      rw [← h.1]
      exact this
    | succ i =>
      simp at h
      unfold forget
      rw [List.filter_cons, if_pos]
      · rw [List.eraseIdx_cons_succ]
        congr 1
        exact ih hn.2 h
      simp only [decide_eq_true_eq, ne_eq]
      intro hk
      apply hn.1
      rw [hk]
      exact List.mem_map.mpr ⟨_, List.mem_of_getElem? h, rfl⟩

theorem forget_none {l : List (List Byte × V)} {k} (h : ∀ p ∈ l, p.1 ≠ k) : forget k l = l := by
  unfold forget
  rw [List.filter_eq_self]
  intro p hp
  simpa using h p hp

theorem Obj.Inv.absent {hash : List Byte → Nat} {o : Obj V} (hi : o.Inv hash) {key : List Byte}
    (h : ∀ e ∈ o.index, ∀ it, o.items[e.2]? = some it → it.1 ≠ key) : ∀ p ∈ o.items, p.1 ≠ key := by
  intro p hp
  obtain ⟨i, hip⟩ := List.mem_iff_getElem?.mp hp
  exact h _ (hi.complete i p hip) p hip

theorem get_correct {hash : List Byte → Nat} {o : Obj V} (hi : o.Inv hash) (key : List Byte) :
    o.get hash key = some (lookup key o.items) := by
  unfold Obj.get
  rcases find_spec hash key o.items o.index hi.sound with ⟨p, h, i, v, f1, f2, f3⟩ | ⟨f1, f2⟩
  · rw [f1]; dsimp only; rw [f2]; dsimp only; rw [f3]; dsimp only
    rw [lookup_of_get hi.keys f3]
  · rw [f1]; dsimp only
    rw [lookup_none (hi.absent f2)]

theorem set_correct {hash : List Byte → Nat} {o : Obj V} (hi : o.Inv hash) (key : List Byte) (v : V) :
    ∃ o', o.set hash key v = some o' ∧ o'.items = assign key v o.items ∧ o'.Inv hash := by
  unfold Obj.set
  rcases find_spec hash key o.items o.index hi.sound with ⟨p, h, i, w, f1, f2, f3⟩ | ⟨f1, f2⟩
  · rw [f1]; dsimp only; rw [f2]; dsimp only; rw [f3]; dsimp only
    refine ⟨_, rfl, (assign_of_get hi.keys f3).symm, ?_⟩
    have hlt : i < o.items.length := (List.getElem?_eq_some_iff.mp f3).1
    have hmap : (o.items.set i (key, v)).map Prod.fst = o.items.map Prod.fst := by
      rw [List.map_set]
      apply List.ext_getElem?
      intro j
      rw [List.getElem?_set]
      split
      · rename_i hij
        subst hij
        rw [List.length_map, if_pos hlt, List.getElem?_map, f3]
        rfl
      · rfl
    have hkey : ∀ j : Nat, ((o.items.set i (key, v))[j]?).map Prod.fst = (o.items[j]?).map Prod.fst := by
      intro j
      rw [← List.getElem?_map, ← List.getElem?_map, hmap]
    constructor
    · intro e he
      obtain ⟨it, h1, h2⟩ := hi.sound e he
      have := hkey e.2
      rw [h1] at this
      cases hq : (o.items.set i (key, v))[e.2]? with
      | none => rw [hq] at this; cases this
      | some it' =>
        rw [hq] at this
        simp only [Option.map_some, Option.some.injEq] at this
        exact ⟨it', rfl, by rw [h2, this]⟩
    · intro j it hj
      dsimp only at hj
      have := hkey j
      rw [hj] at this
      cases hq : o.items[j]? with
      | none => rw [hq] at this; cases this
      | some it' =>
        rw [hq] at this
        simp only [Option.map_some, Option.some.injEq] at this
        rw [this]
        exact hi.complete j it' hq
    · exact hi.nodup
    · dsimp only; rw [hmap]; exact hi.keys
  · rw [f1]; dsimp only
    have habs := hi.absent f2
    refine ⟨_, rfl, (assign_none habs).symm, ?_⟩
    constructor
    · intro e he
      dsimp only at he ⊢
      rcases List.mem_append.mp he with he | he
      · obtain ⟨it, h1, h2⟩ := hi.sound e he
        refine ⟨it, ?_, h2⟩
        rw [List.getElem?_append_left (List.getElem?_eq_some_iff.mp h1).1]
        exact h1
      · rw [List.mem_singleton.mp he]
        exact ⟨(key, v), by simp, rfl⟩
    · intro j it hj
      dsimp only at hj ⊢
      rw [List.getElem?_append] at hj
      split at hj
      · exact List.mem_append_left _ (hi.complete j it hj)
      · rename_i hge
        rw [List.getElem?_singleton] at hj
        split at hj
        · cases hj
          have : j = o.items.length := by omega
          rw [this]
          simp
        · cases hj
    · dsimp only
      rw [List.map_append, List.nodup_append]
      refine ⟨hi.nodup, by simp, ?_⟩
      intro a ha b hb
      simp only [List.map_cons, List.map_nil, List.mem_singleton] at hb
      obtain ⟨e, he, rfl⟩ := List.mem_map.mp ha
      obtain ⟨it, h1, -⟩ := hi.sound e he
      have := (List.getElem?_eq_some_iff.mp h1).1
      omega
    · dsimp only
      rw [List.map_append, List.nodup_append]
      refine ⟨hi.keys, by simp, ?_⟩
      intro a ha b hb
      simp only [List.map_cons, List.map_nil, List.mem_singleton] at hb
      obtain ⟨q, hq, rfl⟩ := List.mem_map.mp ha
      rw [hb]
      exact habs q hq

/-- Where an array index ends up after position `i` has been removed. -/
theorem eraseIdx_shift {α : Type} (l : List α) (i j : Nat) (h : j ≠ i) :
    (l.eraseIdx i)[if j > i then j - 1 else j]? = l[j]? := by
  rw [List.getElem?_eraseIdx]
  by_cases hj : j > i
  · rw [if_pos hj, if_neg (by omega)]
    congr 1; omega
  · rw [if_neg hj, if_pos (by omega)]

theorem mem_eraseIdx_of_ne {l : List (Nat × Nat)} (hn : (l.map Prod.snd).Nodup) {p : Nat} {h i : Nat}
    (hp : l[p]? = some (h, i)) (e : Nat × Nat) : e ∈ l.eraseIdx p ↔ e ∈ l ∧ e.2 ≠ i := by
  induction l generalizing p with
  | nil => simp at hp
  | cons a t ih =>
    simp only [List.map_cons, List.nodup_cons] at hn
    cases p with
    | zero =>
      simp at hp
      subst hp
      rw [List.eraseIdx_cons_zero]
      constructor
      · intro he
        refine ⟨List.mem_cons_of_mem _ he, ?_⟩
        rintro rfl
        exact hn.1 (List.mem_map.mpr ⟨e, he, rfl⟩)
      · rintro ⟨he, hne⟩
        rcases List.mem_cons.mp he with rfl | he
        · exact absurd rfl hne
        · exact he
    | succ p =>
      simp at hp
      rw [List.eraseIdx_cons_succ, List.mem_cons, ih hn.2 hp, List.mem_cons]
      have : a.2 ≠ i := by
        rintro rfl
        exact hn.1 (List.mem_map.mpr ⟨_, List.mem_of_getElem? hp, rfl⟩)
      constructor
      · rintro (rfl | h)
        · exact ⟨.inl rfl, this⟩
        · exact ⟨.inr h.1, h.2⟩
      · rintro ⟨rfl | h, hne⟩
        · exact .inl rfl
        · exact .inr ⟨h, hne⟩

theorem remove_correct {hash : List Byte → Nat} {o : Obj V} (hi : o.Inv hash) (key : List Byte) :
    ∃ o', o.remove hash key = some (lookup key o.items, o') ∧ o'.items = forget key o.items ∧
      o'.Inv hash := by
  unfold Obj.remove
  rcases find_spec hash key o.items o.index hi.sound with ⟨p, h, i, w, f1, f2, f3⟩ | ⟨f1, f2⟩
  · rw [f1]; dsimp only; rw [f2]; dsimp only; rw [f3]; dsimp only
    rw [lookup_of_get hi.keys f3]
    refine ⟨_, rfl, (forget_of_get hi.keys f3).symm, ?_⟩
    have hmem := mem_eraseIdx_of_ne hi.nodup f2
    have hadj : ∀ e : Nat × Nat, (if e.2 > i then (e.1, e.2 - 1) else e) =
        (e.1, if e.2 > i then e.2 - 1 else e.2) := by
      intro e; split <;> rfl
    constructor
    · intro e he
      dsimp only at he ⊢
      obtain ⟨e0, he0, rfl⟩ := List.mem_map.mp he
      rw [hadj]
      obtain ⟨h1, h2⟩ := (hmem e0).mp he0
      obtain ⟨it, h3, h4⟩ := hi.sound e0 h1
      exact ⟨it, by rw [← h3]; exact eraseIdx_shift o.items i e0.2 h2, h4⟩
    · intro j it hj
      dsimp only at hj ⊢
      rw [List.getElem?_eraseIdx] at hj
      refine List.mem_map.mpr ?_
      by_cases hlt : j < i
      · rw [if_pos hlt] at hj
        refine ⟨(hash it.1, j), (hmem _).mpr ⟨hi.complete j it hj, by dsimp only; omega⟩, ?_⟩
        rw [if_neg (by dsimp only; omega)]
      · rw [if_neg hlt] at hj
        refine ⟨(hash it.1, j + 1), (hmem _).mpr ⟨hi.complete _ it hj, by dsimp only; omega⟩, ?_⟩
        rw [if_pos (by dsimp only; omega)]
        rfl
    · dsimp only
      rw [List.map_map]
      have hsub : ((o.index.eraseIdx p).map Prod.snd).Nodup :=
        hi.nodup.sublist ((List.eraseIdx_sublist _ _).map _)
      have : ∀ (l : List (Nat × Nat)), (l.map Prod.snd).Nodup → (∀ e ∈ l, e.2 ≠ i) →
          (l.map (Prod.snd ∘ fun e => if e.2 > i then (e.1, e.2 - 1) else e)).Nodup := by
        intro l
        induction l with
        | nil => simp
        | cons a t ih =>
          intro hn hne
          simp only [List.map_cons, List.nodup_cons] at hn ⊢
          refine ⟨?_, ih hn.2 (fun e he => hne e (List.mem_cons_of_mem _ he))⟩
          intro hm
          obtain ⟨b, hb, hab⟩ := List.mem_map.mp hm
          simp only [Function.comp, hadj] at hab
          have h1 := hne a (by simp)
          have h2 := hne b (List.mem_cons_of_mem _ hb)
          apply hn.1
          refine List.mem_map.mpr ⟨b, hb, ?_⟩
          split at hab <;> split at hab <;> omega
      exact this _ hsub (fun e he => ((hmem e).mp he).2)
    · dsimp only
      exact hi.keys.sublist ((List.eraseIdx_sublist _ _).map _)
  · rw [f1]; dsimp only
    have habs := hi.absent f2
    rw [lookup_none habs]
    exact ⟨o, rfl, (forget_none habs).symm, hi⟩

/-- One operation as the code performs it: the answer and the object afterwards.  The index is a
hash table, so nothing is known about the order of its entries: any rearrangement may happen. -/
inductive Step (hash : List Byte → Nat) : Op V → Obj V → Option V → Obj V → Prop
  | get {o k a idx} : o.get hash k = some a → idx.Perm o.index →
      Step hash (.get k) o a ⟨idx, o.items⟩
  | set {o k v o' idx} : o.set hash k v = some o' → idx.Perm o'.index →
      Step hash (.set k v) o (some v) ⟨idx, o'.items⟩
  | remove {o k a o' idx} : o.remove hash k = some (a, o') → idx.Perm o'.index →
      Step hash (.remove k) o a ⟨idx, o'.items⟩

/-- A sequence of operations. -/
inductive Steps (hash : List Byte → Nat) : List (Op V) → Obj V → List (Option V) → Obj V → Prop
  | nil {o} : Steps hash [] o [] o
  | cons {op ops o a o1 as o2} : Step hash op o a o1 → Steps hash ops o1 as o2 →
      Steps hash (op :: ops) o (a :: as) o2

theorem Obj.Inv.perm {hash : List Byte → Nat} {o : Obj V} (hi : o.Inv hash) {idx : List (Nat × Nat)}
    (hp : idx.Perm o.index) : Obj.Inv hash ⟨idx, o.items⟩ := by
  constructor
  · intro e he; exact hi.sound e (hp.mem_iff.mp he)
  · intro i it h; exact hp.mem_iff.mpr (hi.complete i it h)
  · exact (hp.map Prod.snd).nodup_iff.mpr hi.nodup
  · exact hi.keys

theorem Step.correct {hash : List Byte → Nat} {op : Op V} {o o' : Obj V} {a : Option V}
    (hi : o.Inv hash) (h : Step hash op o a o') :
    a = op.answer o.items ∧ o'.items = op.effect o.items ∧ o'.Inv hash := by
  cases h with
  | get h hp =>
    rw [get_correct hi] at h
    cases h
    exact ⟨rfl, rfl, hi.perm hp⟩
  | set h hp =>
    obtain ⟨o1, h1, h2, h3⟩ := set_correct hi _ _
    rw [h1] at h
    cases h
    exact ⟨rfl, h2, h3.perm hp⟩
  | remove h hp =>
    obtain ⟨o1, h1, h2, h3⟩ := remove_correct hi _
    rw [h1] at h
    cases h
    exact ⟨rfl, h2, h3.perm hp⟩

theorem Step.exists {hash : List Byte → Nat} {o : Obj V} (hi : o.Inv hash) (op : Op V) :
    ∃ a o', Step hash op o a o' := by
  cases op with
  | get k => exact ⟨_, _, .get (get_correct hi k) (List.Perm.refl _)⟩
  | set k v =>
    obtain ⟨o1, h1, _, _⟩ := set_correct hi k v
    exact ⟨_, _, .set h1 (List.Perm.refl _)⟩
  | remove k =>
    obtain ⟨o1, h1, _, _⟩ := remove_correct hi k
    exact ⟨_, _, .remove h1 (List.Perm.refl _)⟩

theorem Steps.correct {hash : List Byte → Nat} {ops : List (Op V)} {o o' : Obj V}
    {as : List (Option V)} (hi : o.Inv hash) (h : Steps hash ops o as o') :
    as = (run ops o.items).1 ∧ o'.items = (run ops o.items).2 ∧ o'.Inv hash := by
  induction h with
  | nil => exact ⟨rfl, rfl, hi⟩
  | cons h1 _ ih =>
    obtain ⟨e1, e2, e3⟩ := h1.correct hi
    obtain ⟨f1, f2, f3⟩ := ih e3
    rw [e2] at f1 f2
    exact ⟨by rw [run, e1, f1], by rw [run, f2], f3⟩

theorem Obj.Inv.empty (hash : List Byte → Nat) : Obj.Inv hash (⟨[], []⟩ : Obj V) :=
  ⟨by simp, by simp, by simp, by simp⟩

/-- **C35**: whatever the hash function, the order of the hash table's entries and the history of
operations from an empty object on, the code's answers are those of an association list in
insertion order, and so are the object's contents. -/
theorem C35_history (hash : List Byte → Nat) (ops : List (Op V)) (as : List (Option V)) (o : Obj V)
    (h : Steps hash ops ⟨[], []⟩ as o) : as = (run ops []).1 ∧ o.items = (run ops []).2 := by
  obtain ⟨h1, h2, -⟩ := h.correct (Obj.Inv.empty hash)
  exact ⟨h1, h2⟩

/-- **C35**: no history of operations runs into undefined behaviour: each next operation can be
carried out. -/
theorem C35_never_stuck (hash : List Byte → Nat) (ops : List (Op V)) (as : List (Option V)) (o : Obj V)
    (h : Steps hash ops ⟨[], []⟩ as o) (op : Op V) : ∃ a o', Step hash op o a o' :=
  Step.exists (h.correct (Obj.Inv.empty hash)).2.2 op

example : ∃ as o, Steps (fun _ => 7) [.set [97] 1, .set [98] 2, .remove [97], .get [98], .set [97] 3]
    (⟨[], []⟩ : Obj Nat) as o ∧ o.items = [([98], 2), ([97], 3)] ∧ as[3]? = some (some 2) :=
  ⟨_, _, .cons (.set rfl (List.Perm.refl _)) (.cons (.set rfl (List.Perm.refl _))
    (.cons (.remove rfl (List.Perm.refl _)) (.cons (.get rfl (List.Perm.refl _))
    (.cons (.set rfl (List.Perm.refl _)) .nil)))), rfl, rfl⟩

/-- **C35**, said once more without the association list: after removing a key it is gone, and every
other key keeps its value and the others their order. -/
theorem C35_remove_frame (hash : List Byte → Nat) (ops : List (Op V)) (as : List (Option V)) (o : Obj V)
    (h : Steps hash ops ⟨[], []⟩ as o) (key : List Byte) :
    ∃ a o', o.remove hash key = some (a, o') ∧ o'.get hash key = some none ∧
      (∀ k, k ≠ key → o'.get hash k = o.get hash k) ∧
      o'.items = o.items.filter (fun p => p.1 ≠ key) := by
  have hi := (h.correct (Obj.Inv.empty hash)).2.2
  obtain ⟨o', h1, h2, h3⟩ := remove_correct hi key
  have hf : ∀ (k : List Byte) (l : List (List Byte × V)),
      lookup k (forget key l) = if k = key then none else lookup k l := by
    intro k l
    induction l with
    | nil => simp [forget, lookup]
    | cons a t ih =>
      obtain ⟨k', v'⟩ := a
      unfold forget at ih ⊢
      rw [List.filter_cons]
      by_cases hk : k' = key
      · rw [if_neg (by simp [hk]), ih]
        split
        · rfl
        · rename_i hne
          rw [lookup, if_neg (by rw [hk]; exact fun h => hne h.symm)]
      · rw [if_pos (by simp [hk]), lookup, ih, lookup]
        by_cases hkk : k' = k
        · subst hkk
          rw [if_pos rfl, if_neg hk, if_pos rfl]
        · rw [if_neg hkk, if_neg hkk]
  refine ⟨_, o', h1, ?_, ?_, h2⟩
  · rw [get_correct h3, h2, hf, if_pos rfl]
  · intro k hk
    rw [get_correct h3, get_correct hi, h2, hf, if_neg hk]

/-- Copying an object with at least one property always fails the assertion in `insertOrFind`: the
context is missing. -/
theorem C35_copy_asserts (hash : List Byte → Nat) (o : Obj V) (h : o.items ≠ []) :
    o.copy true hash = none := by
  obtain ⟨idx, items⟩ := o
  cases items with
  | nil => exact absurd rfl h
  | cons a t => simp [Obj.copy, Obj.copyIndex]

example : (⟨[(7, 0)], [([97], 1)]⟩ : Obj Nat).items ≠ [] := by simp

theorem copyIndex_ok (hash : List Byte → Nat) : ∀ (l : List (List Byte × V)) (idx : List (Nat × Nat))
    (n : Nat), (idx.map Prod.fst).Nodup →
    ((∃ r, Obj.copyIndex false hash idx n l = some r) ↔
      (idx.map Prod.fst ++ l.map (fun p => hash p.1)).Nodup) ∧
    ∀ r, Obj.copyIndex false hash idx n l = some r →
      r = idx ++ (l.zipIdx n).map (fun p => (hash p.1.1, p.2)) := by
  intro l
  induction l with
  | nil => intro idx n hn; simp [Obj.copyIndex, hn]
  | cons a t ih =>
    obtain ⟨k, v⟩ := a
    intro idx n hn
    rw [Obj.copyIndex]
    simp only [Bool.false_eq_true, ↓reduceIte]
    by_cases hc : idx.any (fun e => e.1 == hash k) = true
    · rw [if_pos hc]
      refine ⟨⟨fun ⟨r, h⟩ => (by cases h), ?_⟩, fun r h => (by cases h)⟩
      intro hnd
      rw [List.nodup_append] at hnd
      obtain ⟨e, he, hek⟩ := List.any_eq_true.mp hc
      exact absurd (by simpa using hek) (hnd.2.2 e.1 (List.mem_map.mpr ⟨e, he, rfl⟩) (hash k) (by simp))
    · rw [if_neg hc]
      have hn' : ((idx ++ [(hash k, n)]).map Prod.fst).Nodup := by
        rw [List.map_append, List.nodup_append]
        refine ⟨hn, by simp, ?_⟩
        intro x hx y hy
        simp only [List.map_cons, List.map_nil, List.mem_singleton] at hy
        obtain ⟨e, he, rfl⟩ := List.mem_map.mp hx
        intro hxy
        exact hc (List.any_eq_true.mpr ⟨e, he, by simp [hxy, hy]⟩)
      obtain ⟨i1, i2⟩ := ih (idx ++ [(hash k, n)]) (n + 1) hn'
      constructor
      · rw [i1]; simp
      · intro r hr
        rw [i2 r hr]
        simp [List.zipIdx_cons]

/-- Without assertions, copying an object works exactly if no two of its keys have the same hash;
then the copy has the same contents and works like the original.  Otherwise a null pointer is
dereferenced. -/
theorem C35_copy_unchecked (hash : List Byte → Nat) (ops : List (Op V)) (as : List (Option V)) (o : Obj V)
    (h : Steps hash ops ⟨[], []⟩ as o) :
    ((∃ c, o.copy false hash = some c) ↔ (o.items.map (fun p => hash p.1)).Nodup) ∧
    ∀ c, o.copy false hash = some c → c.items = o.items ∧ ∀ k, c.get hash k = o.get hash k := by
  have hi := (h.correct (Obj.Inv.empty hash)).2.2
  obtain ⟨i1, i2⟩ := copyIndex_ok hash o.items [] 0 (by simp)
  constructor
  · rw [show (o.items.map fun p => hash p.1) =
      ([] : List (Nat × Nat)).map Prod.fst ++ o.items.map (fun p => hash p.1) from rfl, ← i1]
    unfold Obj.copy
    constructor
    · rintro ⟨c, hc⟩
      split at hc
      · cases hc
      · rename_i r hr; exact ⟨r, hr⟩
    · rintro ⟨r, hr⟩
      rw [hr]; exact ⟨_, rfl⟩
  · intro c hc
    unfold Obj.copy at hc
    split at hc
    · cases hc
    · rename_i r hr
      cases hc
      refine ⟨rfl, fun k => ?_⟩
      have hr' := i2 r hr
      rw [List.nil_append] at hr'
      have hinv : Obj.Inv hash (⟨r, o.items⟩ : Obj V) := by
        have hmem : ∀ e : Nat × Nat, e ∈ r ↔ ∃ it, o.items[e.2]? = some it ∧ e.1 = hash it.1 := by
          intro e
          rw [hr', List.mem_map]
          constructor
          · rintro ⟨p, hp, rfl⟩
            have := List.mem_zipIdx_iff_getElem?.mp hp
            exact ⟨p.1, this, rfl⟩
          · rintro ⟨it, h1, h2⟩
            exact ⟨(it, e.2), List.mem_zipIdx_iff_getElem?.mpr h1, by rw [← h2]⟩
        constructor
        · intro e he; exact (hmem e).mp he
        · intro i it hit; exact (hmem _).mpr ⟨it, hit, rfl⟩
        · dsimp only
          rw [hr', List.map_map]
          have : (Prod.snd ∘ fun p : (List Byte × V) × Nat => (hash p.1.1, p.2)) = Prod.snd := rfl
          rw [this, List.zipIdx_map_snd]
          exact List.nodup_range'
        · exact hi.keys
      rw [get_correct hinv, get_correct hi]

end Verif.Pylon

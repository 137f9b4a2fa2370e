import Verif.PyRef.Spec
import Verif.Esc.Props
namespace Verif.PyRef
open Verif Schema

theorem Saves.fits {env : Env} {P : List Byte → Prop} {t : T} {v : Val} (h : Saves env P t v) :
    Fits env t v := by
  induction h with
  | bool h => exact .bool h
  | str h _ => exact .str h
  | array h _ ih => exact .array h ih
  | struct h h1 _ _ _ ih => exact .struct h h1 ih
  | enum h _ _ _ _ h2 _ => exact .enum h h2
  | switch h _ h2 _ _ ih => exact .switch h h2 ih
  | owned h _ ih => exact .owned h ih

theorem Fits.struct_inv {env : Env} {t : T} {old : Val} {name : List Byte} {ps ms : List (List Byte × T)}
    (ho : Fits env t old) (hk : env.kind t = .struct name ps ms) :
    ∃ os, old = .struct os ∧ os.length = ms.length ∧ ∀ (i : Nat) (m : List Byte × T) o,
      ms[i]? = some m → os[i]? = some o → Fits env m.2 o := by
  cases ho with
  | struct h h1 h2 => rw [hk] at h; cases h; exact ⟨_, rfl, h1, h2⟩
  | _ => simp_all

theorem Fits.switch_inv {env : Env} {t : T} {old : Val} {name : List Byte} {ss : List (List Byte × T)}
    (ho : Fits env t old) (hk : env.kind t = .switch name ss) :
    ∃ oid os ov, old = .switch oid ov ∧ ss[oid]? = some os ∧ Fits env os.2 ov := by
  cases ho with
  | switch h h1 h2 => rw [hk] at h; cases h; exact ⟨_, _, _, rfl, h1, h2⟩
  | _ => simp_all

theorem setProp_new (k : List Byte) (n : Pylon.Node) (acc : List (List Byte × Pylon.Node))
    (h : ∀ p ∈ acc, p.1 ≠ k) : setProp k n acc = acc ++ [(k, n)] := by
  induction acc with
  | nil => rfl
  | cons p acc ih =>
    obtain ⟨k', n'⟩ := p
    rw [setProp, if_neg (h (k', n') (by simp)), ih (fun q hq => h q (by simp [hq]))]
    rfl

theorem getProp_zip (names : List (List Byte)) (ns : List Pylon.Node) (hl : names.length = ns.length)
    (hn : names.Nodup) (i : Nat) (k : List Byte) (n : Pylon.Node) (hk : names[i]? = some k)
    (hi : ns[i]? = some n) : getProp k (names.zip ns) = some n := by
  induction names generalizing ns i with
  | nil => simp at hk
  | cons x names ih =>
    cases ns with
    | nil => simp at hl
    | cons y ns =>
      rw [List.zip_cons_cons, getProp]
      cases i with
      | zero => simp at hk hi; subst hk; subst hi; rw [if_pos rfl]
      | succ i =>
        simp at hk hi hl
        rw [List.nodup_cons] at hn
        rw [if_neg, ih ns hl hn.2 i hk hi]
        intro h
        subst h
        exact hn.1 (List.mem_of_getElem? hk)

theorem exportFields_ok (ms : List (List Byte × T)) (vs : List Val) (ns : List Pylon.Node)
    (child : T → Val → Option Pylon.Node) (hl : vs.length = ms.length) (hl2 : ns.length = ms.length)
    (hc : ∀ (i : Nat) m v n, ms[i]? = some m → vs[i]? = some v → ns[i]? = some n → child m.2 v = some n)
    (hn : (ms.map Prod.fst).Nodup) (acc : List (List Byte × Pylon.Node))
    (hacc : ∀ p ∈ acc, p.1 ∉ ms.map Prod.fst) :
    exportFields child ms vs acc = some (acc ++ (ms.map Prod.fst).zip ns) := by
  induction ms generalizing vs ns acc with
  | nil =>
    cases vs with
    | nil => simp [exportFields]
    | cons v vs => simp at hl
  | cons m ms ih =>
    cases vs with
    | nil => simp at hl
    | cons v vs =>
      cases ns with
      | nil => simp at hl2
      | cons n ns =>
        rw [exportFields, hc 0 m v n rfl rfl rfl]
        dsimp only
        simp only [List.map_cons, List.nodup_cons] at hn
        rw [setProp_new]
        · rw [ih vs ns (by simpa using hl) (by simpa using hl2)
            (fun i m v n h1 h2 h3 => hc (i + 1) m v n h1 h2 h3) hn.2]
          · simp
          · intro p hp
            rcases List.mem_append.1 hp with hp | hp
            · have := hacc p hp
              simp only [List.map_cons, List.mem_cons, not_or] at this
              exact this.2
            · simp at hp; subst hp; exact hn.1
        · intro p hp h
          exact hacc p hp (by simp [h])

theorem importFields_ok (ms : List (List Byte × T)) (vs olds : List Val) (ns : List Pylon.Node)
    (props : List (List Byte × Pylon.Node)) (child : T → Val → Pylon.Node → Option Val)
    (hl : vs.length = ms.length) (hl2 : ns.length = ms.length) (hl3 : olds.length = ms.length)
    (hg : ∀ (i : Nat) m n, ms[i]? = some m → ns[i]? = some n → getProp m.1 props = some n)
    (hc : ∀ (i : Nat) m v o n, ms[i]? = some m → vs[i]? = some v → olds[i]? = some o → ns[i]? = some n →
      child m.2 o n = some v) :
    importFields child props ms olds = some vs := by
  induction ms generalizing vs olds ns with
  | nil =>
    cases vs with
    | nil => cases olds with
      | nil => rfl
      | cons o os => simp at hl3
    | cons v vs => simp at hl
  | cons m ms ih =>
    cases vs with
    | nil => simp at hl
    | cons v vs =>
      cases ns with
      | nil => simp at hl2
      | cons n ns =>
        cases olds with
        | nil => simp at hl3
        | cons o os =>
          rw [importFields, hg 0 m n rfl rfl]
          dsimp only
          rw [hc 0 m v o n rfl rfl rfl rfl]
          dsimp only
          rw [ih vs os ns (by simpa using hl) (by simpa using hl2) (by simpa using hl3)
            (fun i m n h1 h2 => hg (i + 1) m n h1 h2)
            (fun i m v o n h1 h2 h3 h4 => hc (i + 1) m v o n h1 h2 h3 h4)]
          rfl

theorem exportItems_ok (vs : List Val) (ns : List Pylon.Node) (child : Val → Option Pylon.Node)
    (hl : ns.length = vs.length)
    (hc : ∀ (i : Nat) v n, vs[i]? = some v → ns[i]? = some n → child v = some n) :
    exportItems child vs = some ns := by
  induction vs generalizing ns with
  | nil => cases ns with
    | nil => rfl
    | cons n ns => simp at hl
  | cons v vs ih =>
    cases ns with
    | nil => simp at hl
    | cons n ns =>
      rw [exportItems, hc 0 v n rfl rfl, ih ns (by simpa using hl) (fun i v n h1 h2 => hc (i + 1) v n h1 h2)]

theorem importItems_ok (vs olds : List Val) (ns : List Pylon.Node)
    (child : Val → Pylon.Node → Option Val) (hl : ns.length = vs.length) (hl2 : olds.length = vs.length)
    (hc : ∀ (i : Nat) v o n, vs[i]? = some v → olds[i]? = some o → ns[i]? = some n → child o n = some v) :
    importItems child olds ns = some vs := by
  induction vs generalizing ns olds with
  | nil => cases olds with
    | nil => rw [importItems]
    | cons n ns => simp at hl2
  | cons v vs ih =>
    cases ns with
    | nil => simp at hl
    | cons n ns =>
      cases olds with
      | nil => simp at hl2
      | cons o os =>
        rw [importItems, hc 0 v o n rfl rfl rfl,
          ih os ns (by simpa using hl) (by simpa using hl2) (fun i v o n h1 h2 h3 => hc (i + 1) v o n h1 h2 h3)]

/-- What is to be shown of contents: a tree to which they are exported and from which they come back. -/
def Back (env : Env) (t : T) (v : Val) (N : Nat) (n : Pylon.Node) : Prop :=
  (∀ fuel, N ≤ fuel → exportObj env fuel t v = some n) ∧
    ∀ old, Fits env t old → ∀ fuel, N ≤ fuel → importInto env fuel t old n = some v

theorem Back.mono {env : Env} {t : T} {v : Val} {N M : Nat} {n : Pylon.Node} (h : Back env t v N n)
    (hm : N ≤ M) : Back env t v M n :=
  ⟨fun f hf => h.1 f (Nat.le_trans hm hf), fun o ho f hf => h.2 o ho f (Nat.le_trans hm hf)⟩

/-- Trees for a list of contents with a common bound. -/
theorem collect {env : Env} (Q : Pylon.Node → Prop) (ts : List T) (vs : List Val) (hl : vs.length = ts.length)
    (h : ∀ (i : Nat) t v, ts[i]? = some t → vs[i]? = some v → ∃ N n, Back env t v N n ∧ Q n) :
    ∃ (N : Nat) (ns : List Pylon.Node), ns.length = ts.length ∧ (∀ n ∈ ns, Q n) ∧
      ∀ (i : Nat) t v n, ts[i]? = some t → vs[i]? = some v → ns[i]? = some n → Back env t v N n := by
  induction ts generalizing vs with
  | nil => exact ⟨0, [], rfl, by simp, by simp⟩
  | cons t ts ih =>
    cases vs with
    | nil => simp at hl
    | cons v vs =>
      obtain ⟨N, n, h1, h2⟩ := h 0 t v rfl rfl
      obtain ⟨M, ns, h3, h4, h5⟩ := ih vs (by simpa using hl) (fun i t v a b => h (i + 1) t v a b)
      refine ⟨max N M, n :: ns, by simp [h3], ?_, ?_⟩
      · intro x hx
        rcases List.mem_cons.1 hx with rfl | hx
        · exact h2
        · exact h4 x hx
      · intro i t' v' n' a b c
        cases i with
        | zero => simp at a b c; subst a; subst b; subst c; exact h1.mono (Nat.le_max_left _ _)
        | succ i => exact (h5 i t' v' n' a b c).mono (Nat.le_max_right _ _)

theorem resize_length (d : Val) (old : List Val) (n : Nat) : (resize d old n).length = n := by
  simp [resize]; omega

theorem resize_fits {env : Env} {item : T} {d : Val} {old : List Val} (n : Nat)
    (h : ∀ v, v ∈ old → Fits env item v) (hd : Fits env item d) :
    ∀ v, v ∈ resize d old n → Fits env item v := by
  intro v hv
  rcases List.mem_append.1 hv with hv | hv
  · exact h v (List.mem_of_mem_take hv)
  · rw [List.eq_of_mem_replicate hv]; exact hd

theorem findValue_name (vals : List Nat) (ids : List (List Byte)) (hl : vals.length = ids.length)
    (hn : ids.Nodup) (n : Nat) (h : n ∈ vals) :
    ∃ i, findValue vals ids n = some i ∧ i ∈ ids ∧ findName ids vals i = some n := by
  induction vals generalizing ids with
  | nil => cases h
  | cons v vals ih =>
    cases ids with
    | nil => simp at hl
    | cons i ids =>
      rw [findValue]
      by_cases hv : v = n
      · exact ⟨i, by rw [if_pos hv], by simp, by rw [findName, if_pos rfl, hv]⟩
      · rw [if_neg hv]
        rw [List.nodup_cons] at hn
        have hm : n ∈ vals := by
          rcases List.mem_cons.1 h with h | h
          · exact absurd h.symm hv
          · exact h
        obtain ⟨j, h1, h2, h3⟩ := ih ids (by simpa using hl) hn.2 hm
        refine ⟨j, h1, by simp [h2], ?_⟩
        rw [findName, if_neg, h3]
        rintro rfl
        exact hn.1 h2

theorem findState_get (ss : List (List Byte × T)) (hn : (ss.map Prod.fst).Nodup) (id : Nat)
    (s : List Byte × T) (h : ss[id]? = some s) : findState ss s.1 = some (id, s.2) := by
  induction ss generalizing id with
  | nil => simp at h
  | cons x ss ih =>
    rw [findState]
    simp only [List.map_cons, List.nodup_cons] at hn
    cases id with
    | zero => simp at h; subst h; rw [if_pos rfl]
    | succ id =>
      simp at h
      rw [if_neg, ih hn.2 id h]
      · rfl
      · intro hx
        apply hn.1
        rw [hx]
        exact List.mem_map_of_mem (List.mem_of_getElem? h)

theorem enumSize_of {size : Nat} (h : size = 1 ∨ size = 2 ∨ size = 4) : enumSize size = true := by
  unfold enumSize
  exact decide_eq_true h

theorem goodItems_of (ns : List Pylon.Node) (h : ∀ n ∈ ns, Pylon.Spec.Good n) : Pylon.Spec.GoodItems ns := by
  induction ns with
  | nil => exact .nil
  | cons n ns ih => exact .cons (h n (by simp)) (ih fun m hm => h m (by simp [hm]))

theorem goodProps_of (names : List (List Byte)) (ns : List Pylon.Node) (hn : names.Nodup)
    (hp : ∀ k ∈ names, Pylon.Spec.GoodText k) (h : ∀ n ∈ ns, Pylon.Spec.Good n) :
    Pylon.Spec.GoodProps (names.zip ns) := by
  induction names generalizing ns with
  | nil => exact .nil
  | cons k names ih =>
    cases ns with
    | nil => exact .nil
    | cons n ns =>
      rw [List.nodup_cons] at hn
      refine .cons (hp k (by simp)) (h n (by simp)) ?_
        (ih ns hn.2 (fun k hk => hp k (by simp [hk])) (fun m hm => h m (by simp [hm])))
      rintro ⟨a, b⟩ hab rfl
      exact hn.1 (List.of_mem_zip hab).1

theorem goodText_bool (b : Bool) : Pylon.Spec.GoodText (boolText b) := by
  cases b <;> exact ⟨Esc.noOverlong_ascii _ (by decide), by decide⟩

/-- The main induction: contents that can be saved come back from the tree. -/
theorem saves_back {env : Env} {P : List Byte → Prop} (hd : DefaultsFit env) {t : T} {v : Val}
    (h : Saves env P t v) :
    ∃ N n, Back env t v N n ∧ ((∀ s, P s → Pylon.Spec.GoodText s) → Pylon.Spec.Good n) := by
  induction h with
  | @bool t l b hk =>
    refine ⟨1, .text (boolText b), ⟨?_, ?_⟩, fun _ => .text (goodText_bool b)⟩
    · intro fuel hf
      obtain ⟨f, rfl⟩ : ∃ f, fuel = f + 1 := ⟨fuel - 1, by omega⟩
      rw [exportObj.eq_def]; dsimp only; rw [hk]; rfl
    · intro old _ fuel hf
      obtain ⟨f, rfl⟩ : ∃ f, fuel = f + 1 := ⟨fuel - 1, by omega⟩
      rw [importInto.eq_def]; dsimp only; rw [hk]
      cases b <;> rfl
  | @str t l s hk hp =>
    refine ⟨1, .text s, ⟨?_, ?_⟩, fun hg => .text (hg s hp)⟩
    · intro fuel hf
      obtain ⟨f, rfl⟩ : ∃ f, fuel = f + 1 := ⟨fuel - 1, by omega⟩
      rw [exportObj.eq_def]; dsimp only; rw [hk]; rfl
    · intro old _ fuel hf
      obtain ⟨f, rfl⟩ : ∃ f, fuel = f + 1 := ⟨fuel - 1, by omega⟩
      rw [importInto.eq_def]; dsimp only; rw [hk]; rfl
  | @array t item vs hk hs ih =>
    obtain ⟨N, ns, h1, h2, h3⟩ := collect (env := env)
      (fun n => (∀ s, P s → Pylon.Spec.GoodText s) → Pylon.Spec.Good n) (List.replicate vs.length item) vs
      (by simp) (by
        intro i t v ht hv
        have : t = item := List.eq_of_mem_replicate (List.mem_of_getElem? ht)
        subst this
        exact ih v (List.mem_of_getElem? hv))
    simp only [List.length_replicate] at h1
    have h3' : ∀ (i : Nat) v n, vs[i]? = some v → ns[i]? = some n → Back env item v N n := by
      intro i v n hv hn
      refine h3 i item v n ?_ hv hn
      rw [List.getElem?_replicate, if_pos]
      obtain ⟨hi, _⟩ := List.getElem?_eq_some_iff.1 hv
      exact hi
    refine ⟨N + 1, .arr ns, ⟨?_, ?_⟩, fun hg => .arr (goodItems_of ns fun n hn => h2 n hn hg)⟩
    · intro fuel hf
      obtain ⟨f, rfl⟩ : ∃ f, fuel = f + 1 := ⟨fuel - 1, by omega⟩
      rw [exportObj.eq_def]; dsimp only; rw [hk]
      dsimp only
      rw [exportItems_ok vs ns _ h1 (fun i v n hv hn => (h3' i v n hv hn).1 f (by omega))]
      rfl
    · intro old ho fuel hf
      obtain ⟨f, rfl⟩ : ∃ f, fuel = f + 1 := ⟨fuel - 1, by omega⟩
      have : ∃ os, old = .items os ∧ ∀ o, o ∈ os → Fits env item o := by
        cases ho <;> simp_all
      obtain ⟨os, rfl, hos⟩ := this
      rw [importInto.eq_def]; dsimp only; rw [hk]
      dsimp only
      rw [importItems_ok vs _ ns _ h1 (by rw [resize_length, h1])]
      · rfl
      · intro i v o n hv ho hn
        have hfit : Fits env item v := (hs v (List.mem_of_getElem? hv)).fits
        exact (h3' i v n hv hn).2 o
          (resize_fits _ hos (hd _ _ hfit) o (List.mem_of_getElem? ho)) f (by omega)
  | @struct t name ps ms vs hk hl hnd hp hs ih =>
    obtain ⟨N, ns, h1, h2, h3⟩ := collect (env := env)
      (fun n => (∀ s, P s → Pylon.Spec.GoodText s) → Pylon.Spec.Good n) (ms.map Prod.snd) vs
      (by simp [hl]) (by
        intro i t v ht hv
        rw [List.getElem?_map] at ht
        cases hm : ms[i]? with
        | none => simp [hm] at ht
        | some m =>
          simp [hm] at ht
          subst ht
          exact ih i m v hm hv)
    simp only [List.length_map] at h1
    have h3' : ∀ (i : Nat) (m : List Byte × T) v n, ms[i]? = some m → vs[i]? = some v → ns[i]? = some n →
        Back env m.2 v N n := by
      intro i m v n hm hv hn
      exact h3 i m.2 v n (by rw [List.getElem?_map, hm]; rfl) hv hn
    refine ⟨N + 1, .obj ((ms.map Prod.fst).zip ns), ⟨?_, ?_⟩, fun hg => .obj (goodProps_of _ _ hnd ?_
      fun n hn => h2 n hn hg)⟩
    · intro fuel hf
      obtain ⟨f, rfl⟩ : ∃ f, fuel = f + 1 := ⟨fuel - 1, by omega⟩
      rw [exportObj.eq_def]; dsimp only; rw [hk]
      dsimp only
      rw [exportFields_ok ms vs ns _ hl h1 (fun i m v n hm hv hn => (h3' i m v n hm hv hn).1 f (by omega)) hnd
        [] (by simp)]
      rfl
    · intro old ho fuel hf
      obtain ⟨f, rfl⟩ : ∃ f, fuel = f + 1 := ⟨fuel - 1, by omega⟩
      have : ∃ os, old = .struct os ∧ os.length = ms.length ∧ ∀ (i : Nat) (m : List Byte × T) o,
          ms[i]? = some m → os[i]? = some o → Fits env m.2 o := ho.struct_inv hk
      obtain ⟨os, rfl, hol, hos⟩ := this
      rw [importInto.eq_def]; dsimp only; rw [hk]
      dsimp only
      rw [importFields_ok ms vs os ns _ _ hl h1 hol]
      · rfl
      · intro i m n hm hn
        exact getProp_zip _ ns (by simp [h1]) hnd i m.1 n (by rw [List.getElem?_map, hm]; rfl) hn
      · intro i m v o n hm hv ho hn
        exact (h3' i m v n hm hv hn).2 o (hos i m o hm ho) f (by omega)
    · intro k hk
      obtain ⟨m, hm, rfl⟩ := List.mem_map.1 hk
      exact hg _ (hp m hm)
  | @enum t name size ids n hk hsz hnd hl hn hlt hp =>
    obtain ⟨i, h1, h2, h3⟩ := findValue_name (env.vals t) ids hl hnd n hn
    refine ⟨1, .text i, ⟨?_, ?_⟩, fun hg => .text (hg i (hp i h2))⟩
    · intro fuel hf
      obtain ⟨f, rfl⟩ : ∃ f, fuel = f + 1 := ⟨fuel - 1, by omega⟩
      rw [exportObj.eq_def]; dsimp only; rw [hk]
      dsimp only
      rw [if_pos (enumSize_of hsz), h1]; rfl
    · intro old ho fuel hf
      obtain ⟨f, rfl⟩ : ∃ f, fuel = f + 1 := ⟨fuel - 1, by omega⟩
      have : ∃ o, old = .enum o := by
        cases ho <;> simp_all
      obtain ⟨o, rfl⟩ := this
      rw [importInto.eq_def]; dsimp only; rw [hk]
      dsimp only
      rw [if_pos (enumSize_of hsz), h3]
      dsimp only
      rw [if_pos hlt]
  | @switch t name ss id s v hk hnd hs hp hv ih =>
    obtain ⟨N, n, h1, h2⟩ := ih
    refine ⟨N + 1, .obj [(s.1, n)], ⟨?_, ?_⟩, fun hg => .obj (.cons (hg _ hp) (h2 hg) (by simp) .nil)⟩
    · intro fuel hf
      obtain ⟨f, rfl⟩ : ∃ f, fuel = f + 1 := ⟨fuel - 1, by omega⟩
      rw [exportObj.eq_def]; dsimp only; rw [hk]
      dsimp only
      rw [hs]
      dsimp only
      rw [h1.1 f (by omega)]
      rfl
    · intro old ho fuel hf
      obtain ⟨f, rfl⟩ : ∃ f, fuel = f + 1 := ⟨fuel - 1, by omega⟩
      have : ∃ oid os ov, old = .switch oid ov ∧ ss[oid]? = some os ∧ Fits env os.2 ov :=
        ho.switch_inv hk
      obtain ⟨oid, os, ov, rfl, hos, hov⟩ := this
      rw [importInto.eq_def]; dsimp only; rw [hk]
      dsimp only
      rw [findState_get ss hnd id s hs]
      dsimp only
      rw [h1.2 _ _ f (by omega)]
      · rfl
      · rw [ensureState]
        split
        · rename_i he
          subst he
          rw [hs] at hos
          cases hos
          exact hov
        · exact hd _ _ hv.fits
  | @owned t target v hk hv ih =>
    obtain ⟨N, n, h1, h2⟩ := ih
    refine ⟨N + 1, n, ⟨?_, ?_⟩, h2⟩
    · intro fuel hf
      obtain ⟨f, rfl⟩ : ∃ f, fuel = f + 1 := ⟨fuel - 1, by omega⟩
      rw [exportObj.eq_def]; dsimp only; rw [hk]
      exact h1.1 f (by omega)
    · intro old _ fuel hf
      obtain ⟨f, rfl⟩ : ∃ f, fuel = f + 1 := ⟨fuel - 1, by omega⟩
      rw [importInto.eq_def]; dsimp only; rw [hk]
      dsimp only
      rw [h1.2 _ (hd _ _ hv.fits) f (by omega)]
      rfl

end Verif.PyRef

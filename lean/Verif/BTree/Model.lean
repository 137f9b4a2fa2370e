import Verif.Basic
/-!
# The B-tree

Models `BTree` (rt/container/BTree.h).

A node is a value; a `Node*` together with its chain of `parent` pointers is a node and its context
(a zipper): the links left and right of it in its parent, then the same for the parent, and so on.
`findLink(child)` is then the number of links on the left, and writing through `parent` changes the
context.  This supposes what the code maintains: every node but the root is the child of exactly one
link, and its `parent` points at the node holding that link.  Heap addresses, alignment (an `Iterator`
packs a position into the low bits of a leaf's address) and the 16-bit `size` are not modelled; a size
is a natural number.  A failing `PLY_ASSERT` or an access outside a node is `none`.
-/
namespace Verif.BTree

/-- `Traits` (rt/container/BTree.h:12-17): the index of an item, the order of indexes and
`NodeCapacity`.  `==` between indexes (line 547) is equality. -/
structure Traits (K V : Type) where
  idx : V → K
  less : K → K → Bool
  cap : Nat

/-- rt/container/BTree.h:22-54, `Link` and `Node`: a leaf holds items, an inner node links. -/
inductive Node (K V : Type) where
  | leaf (items : List V)
  | inner (links : List (K × Node K V))

/-- rt/container/BTree.h:22-25, `Link`. -/
abbrev Link (K V : Type) := K × Node K V

/-- One `parent` step: what is left of this node's link in the parent, the link's index, and what is
right of it (rt/container/BTree.h:27-30). -/
structure Frame (K V : Type) where
  left : List (Link K V)
  key : K
  right : List (Link K V)

/-- The chain of parents, the nearest first. -/
abbrev Ctx (K V : Type) := List (Frame K V)

/-- The links of the parent, given the node. -/
def Frame.links {K V} (f : Frame K V) (n : Node K V) : List (Link K V) :=
  f.left ++ (f.key, n) :: f.right

/-- The root above a node. -/
def zip {K V} (n : Node K V) : Ctx K V → Node K V
  | [] => n
  | f :: fs => zip (.inner (f.links n)) fs

/-- A tree: `m_root` (rt/container/BTree.h:361). -/
abbrev Tree (K V : Type) := Option (Node K V)

variable {K V : Type}

/-- `size` (rt/container/BTree.h:29). -/
def Node.size : Node K V → Nat
  | .leaf items => items.length
  | .inner links => links.length

/-- `isLeaf` (rt/container/BTree.h:30). -/
def Node.isLeaf : Node K V → Bool
  | .leaf _ => true
  | .inner _ => false

/-- The loop of rt/container/BTree.h:62-68. -/
def lastLessLoop (T : Traits K V) (links : List (Link K V)) (x : K) (lo hi : Nat) : Option Nat :=
  if lo < hi then
    let mid := (lo + hi + 1) / 2
    match links[mid]? with
    | none => none
    | some l =>
      if T.less l.1 x then lastLessLoop T links x mid hi else lastLessLoop T links x lo (mid - 1)
  else some lo
termination_by hi - lo
decreasing_by all_goals omega

/-- rt/container/BTree.h:56-70, `getLastChildLessThan`: its position. -/
def lastChildLessThan (T : Traits K V) (links : List (Link K V)) (x : K) : Option Nat :=
  if links.length > 0 then lastLessLoop T links x 0 (links.length - 1) else none

/-- The child at a position, with its frame (`links[pos].child`). -/
def childAt (links : List (Link K V)) (pos : Nat) : Option (Node K V × Frame K V) :=
  match links[pos]? with
  | none => none
  | some l => some (l.2, ⟨links.take pos, l.1, links.drop (pos + 1)⟩)

theorem childAt_sizeOf {links : List (Link K V)} {pos : Nat} {r : Node K V × Frame K V}
    (h : childAt links pos = some r) : sizeOf r.1 < sizeOf links := by
  unfold childAt at h
  split at h
  · cases h
  · next l hl =>
    cases h
    obtain ⟨hlt, rfl⟩ := List.getElem?_eq_some_iff.1 hl
    have h1 : links[pos] ∈ links := List.getElem_mem hlt
    have h2 := List.sizeOf_lt_of_mem h1
    have h3 : sizeOf links[pos] = 1 + sizeOf links[pos].1 + sizeOf links[pos].2 := by
      generalize links[pos] = l
      cases l; simp
    show sizeOf links[pos].2 < _
    omega

/-- The descents of rt/container/BTree.h:584-586, 600-602, 613-615 (`while (!node->isLeaf) node =
node->getLastChildLessThan(index)`). -/
def descend (T : Traits K V) (x : K) (n : Node K V) (c : Ctx K V) : Option (List V × Ctx K V) :=
  match n with
  | .leaf items => some (items, c)
  | .inner links =>
    match lastChildLessThan T links x with
    | none => none
    | some pos =>
      match h : childAt links pos with
      | none => none
      | some r => descend T x r.1 (r.2 :: c)
termination_by sizeOf n
decreasing_by have := childAt_sizeOf h; simp_wf; omega

/-- `while (!node->isLeaf) node = node->getLinks()[0].child` (rt/container/BTree.h:97-99, 692-696). -/
def leftmost (n : Node K V) (c : Ctx K V) : Option (List V × Ctx K V) :=
  match n with
  | .leaf items => some (items, c)
  | .inner links =>
    match h : childAt links 0 with
    | none => none
    | some r => leftmost r.1 (r.2 :: c)
termination_by sizeOf n
decreasing_by have := childAt_sizeOf h; simp_wf; omega

/-- `while (!node->isLeaf) node = node->getLinks()[node->size - 1].child`
(rt/container/BTree.h:117-119). -/
def rightmost (n : Node K V) (c : Ctx K V) : Option (List V × Ctx K V) :=
  match n with
  | .leaf items => some (items, c)
  | .inner links =>
    match h : childAt links (links.length - 1) with
    | none => none
    | some r => rightmost r.1 (r.2 :: c)
termination_by sizeOf n
decreasing_by have := childAt_sizeOf h; simp_wf; omega

/-- The climb of rt/container/BTree.h:86-96, to the next link on the right of some parent. -/
def climbRight (n : Node K V) : Ctx K V → Option (Node K V × Ctx K V)
  | [] => none
  | f :: fs =>
    match f.right with
    | r :: rs => some (r.2, ⟨f.left ++ [(f.key, n)], r.1, rs⟩ :: fs)
    | [] => climbRight (.inner (f.links n)) fs

/-- The climb of rt/container/BTree.h:106-116. -/
def climbLeft (n : Node K V) : Ctx K V → Option (Node K V × Ctx K V)
  | [] => none
  | f :: fs =>
    match f.left.getLast? with
    | some l => some (l.2, ⟨f.left.dropLast, l.1, (f.key, n) :: f.right⟩ :: fs)
    | none => climbLeft (.inner (f.links n)) fs

/-- rt/container/BTree.h:83-101, `getRightSibling`; `some none` is the null pointer. -/
def rightSibling (items : List V) (c : Ctx K V) : Option (Option (List V × Ctx K V)) :=
  match climbRight (.leaf items) c with
  | none => some none
  | some (n, c') => (leftmost n c').map some

/-- rt/container/BTree.h:103-121, `getLeftSibling`. -/
def leftSibling (items : List V) (c : Ctx K V) : Option (Option (List V × Ctx K V)) :=
  match climbLeft (.leaf items) c with
  | none => some none
  | some (n, c') => (rightmost n c').map some

/-- rt/container/BTree.h:123-130, `getFirstIndex`. -/
def firstIndex (T : Traits K V) : Node K V → Option K
  | .leaf items => items.head?.map T.idx
  | .inner links => links.head?.map (·.1)

/-- rt/container/BTree.h:132-146, `insertLink`. -/
def insertLink (T : Traits K V) (links : List (Link K V)) (child : Node K V) (pos : Nat) :
    Option (List (Link K V)) :=
  if links.length < T.cap ∧ pos ≤ links.length then
    match firstIndex T child with
    | none => none
    | some k => some (links.take pos ++ (k, child) :: links.drop pos)
  else none

/-- rt/container/BTree.h:216-224, `updateIndexInParent`. -/
def updateIndexInParent (k : K) : Ctx K V → Ctx K V
  | [] => []
  | f :: fs => { f with key := k } :: (if f.left.length = 0 then updateIndexInParent k fs else fs)

/-- rt/container/BTree.h:148-165, `deleteLink`, on a node with context `c`. -/
def deleteLink (links : List (Link K V)) (pos : Nat) (c : Ctx K V) :
    Option (List (Link K V) × Ctx K V) :=
  if pos < links.length then
    let links' := links.eraseIdx pos
    match links' with
    | [] => some (links', c)
    | l :: _ => some (links', if pos = 0 then updateIndexInParent l.1 c else c)
  else none

/-- The loop of rt/container/BTree.h:172-179. -/
def geLoop (T : Traits K V) (items : List V) (x : K) (lo hi : Nat) : Option Nat :=
  if lo < hi then
    let mid := (lo + hi) / 2
    match items[mid]? with
    | none => none
    | some v => if !T.less (T.idx v) x then geLoop T items x lo mid else geLoop T items x (mid + 1) hi
  else some lo
termination_by hi - lo
decreasing_by all_goals omega

/-- rt/container/BTree.h:167-181, `findGreaterOrEqualPos`. -/
def greaterOrEqualPos (T : Traits K V) (items : List V) (x : K) : Option Nat :=
  geLoop T items x 0 items.length

/-- The loop of rt/container/BTree.h:191-198. -/
def insLoop (T : Traits K V) (items : List V) (x : K) (lo hi : Nat) : Option Nat :=
  if lo < hi then
    let mid := (lo + hi) / 2
    match items[mid]? with
    | none => none
    | some v => if T.less x (T.idx v) then insLoop T items x lo mid else insLoop T items x (mid + 1) hi
  else some lo
termination_by hi - lo
decreasing_by all_goals omega

/-- rt/container/BTree.h:183-200, `findInsertPos`. -/
def insertPos (T : Traits K V) (items : List V) (x : K) : Option Nat :=
  insLoop T items x 0 items.length

/-- rt/container/BTree.h:202-214, `insertItemAt`, and the assignment to the new item (lines 629, 637).
-/
def insertItemAt (T : Traits K V) (items : List V) (pos : Nat) (v : V) : Option (List V) :=
  if items.length < T.cap ∧ pos ≤ items.length then some (items.take pos ++ v :: items.drop pos)
  else none

/-- rt/container/BTree.h:226-242, `deleteItem`, on a leaf with context `c`. -/
def deleteItem (T : Traits K V) (items : List V) (pos : Nat) (c : Ctx K V) :
    Option (List V × Ctx K V) :=
  if pos < items.length then
    let items' := items.eraseIdx pos
    match items' with
    | [] => some (items', c)
    | v :: _ => some (items', if pos = 0 then updateIndexInParent (T.idx v) c else c)
  else none

/-- rt/container/BTree.h:244-261, `splitLeaf` (and 263-280, `splitInnerNode`): the first half stays,
the rest goes to a new right sibling.  `onItemMoved` is not modelled. -/
def splitList {α : Type} (xs : List α) : Option (List α × List α) :=
  if xs.length ≥ 2 then some (xs.take (xs.length / 2), xs.drop (xs.length / 2)) else none

/-- From a node to the sibling on its right, within the parent. -/
def stepRight (n : Node K V) : Ctx K V → Option (Node K V × Ctx K V)
  | [] => none
  | f :: fs =>
    match f.right with
    | [] => none
    | r :: rs => some (r.2, ⟨f.left ++ [(f.key, n)], r.1, rs⟩ :: fs)

/-- rt/container/BTree.h:363-389, `insertRightChild(node, leftChild, rightChild)`: `c` is the context
of `leftChild`, so `node` is its first frame; the result is the context of `leftChild` afterwards. -/
def insertRightChild (T : Traits K V) (leftChild rightChild : Node K V) :
    Ctx K V → Option (Ctx K V)
  | [] =>
    match firstIndex T leftChild, firstIndex T rightChild with
    | some kl, some kr => some [⟨[], kl, [(kr, rightChild)]⟩]
    | _, _ => none
  | f :: fs =>
    let links := f.links leftChild
    let rightPos := f.left.length + 1
    if links.length ≥ T.cap then
      match splitList links with
      | none => none
      | some (a, b) =>
        match insertRightChild T (.inner a) (.inner b) fs with
        | none => none
        | some fs' =>
          if rightPos > a.length then
            let rightPos' := rightPos - a.length
            if rightPos' ≤ b.length then
              match stepRight (.inner a) fs', insertLink T b rightChild rightPos' with
              | some (_, fs''), some b' =>
                match childAt b' (rightPos' - 1) with
                | some (_, f') => some (f' :: fs'')
                | none => none
              | _, _ => none
            else none
          else
            match insertLink T a rightChild rightPos with
            | none => none
            | some a' =>
              match childAt a' (rightPos - 1) with
              | some (_, f') => some (f' :: fs')
              | none => none
    else
      match insertLink T links rightChild rightPos with
      | none => none
      | some links' =>
        match childAt links' (rightPos - 1) with
        | some (_, f') => some (f' :: fs)
        | none => none

/-- rt/container/BTree.h:282-311, `merge`. -/
def merge (T : Traits K V) (l r : Node K V) : Option (Node K V) :=
  if l.size + r.size ≤ T.cap then
    match l, r with
    | .leaf a, .leaf b => some (.leaf (a ++ b))
    | .inner a, .inner b => some (.inner (a ++ b))
    | _, _ => none
  else none

theorem updateIndexInParent_length (k : K) (c : Ctx K V) :
    (updateIndexInParent k c).length = c.length := by
  induction c with
  | nil => rfl
  | cons f fs ih => unfold updateIndexInParent; split <;> simp [ih]

theorem deleteLink_length {links : List (Link K V)} {pos : Nat} {c : Ctx K V}
    {r : List (Link K V) × Ctx K V} (h : deleteLink links pos c = some r) :
    r.2.length = c.length := by
  unfold deleteLink at h
  dsimp only at h
  split at h
  · split at h
    · cases h; rfl
    · cases h; show (if _ then _ else _ : Ctx K V).length = _
      split
      · exact updateIndexInParent_length _ _
      · rfl
  · cases h

/-- rt/container/BTree.h:426-434, the second test of `tryCompact`: merging with the sibling on the
right.  `some none` is nothing to do; otherwise the links of the parent afterwards, and the parent's
context. -/
def compactRight (T : Traits K V) (n : Node K V) (f : Frame K V) (fs : Ctx K V) :
    Option (Option (List (Link K V) × Ctx K V)) :=
  match f.right.head? with
  | none => some none
  | some r =>
    if n.isLeaf ≠ r.2.isLeaf then none
    else if n.size + r.2.size ≤ T.cap then
      match merge T n r.2 with
      | none => none
      | some m => (deleteLink ((f.links n).set f.left.length (f.key, m)) (f.left.length + 1) fs).map some
    else some none

/-- rt/container/BTree.h:405-435, one round of `tryCompact` at a node that has a parent. -/
def compactStep (T : Traits K V) (n : Node K V) (f : Frame K V) (fs : Ctx K V) :
    Option (Option (List (Link K V) × Ctx K V)) :=
  if n.size = 0 then (deleteLink (f.links n) f.left.length fs).map some
  else
    match f.left.getLast? with
    | none => compactRight T n f fs
    | some l =>
      if n.isLeaf ≠ l.2.isLeaf then none
      else if n.size + l.2.size ≤ T.cap then
        match merge T l.2 n with
        | none => none
        | some m =>
          (deleteLink ((f.links n).set (f.left.length - 1) (l.1, m)) f.left.length fs).map some
      else compactRight T n f fs

theorem compactRight_length {T : Traits K V} {n : Node K V} {f : Frame K V} {fs : Ctx K V} {r}
    (h : compactRight T n f fs = some (some r)) : r.2.length = fs.length := by
  unfold compactRight at h
  split at h
  · cases h
  · split at h
    · cases h
    · split at h
      · split at h
        · cases h
        · obtain ⟨a, ha, e⟩ := Option.map_eq_some_iff.1 h
          cases e; exact deleteLink_length ha
      · cases h

theorem compactStep_length {T : Traits K V} {n : Node K V} {f : Frame K V} {fs : Ctx K V} {r}
    (h : compactStep T n f fs = some (some r)) : r.2.length = fs.length := by
  unfold compactStep at h
  split at h
  · obtain ⟨a, ha, e⟩ := Option.map_eq_some_iff.1 h
    cases e; exact deleteLink_length ha
  · split at h
    · exact compactRight_length h
    · split at h
      · cases h
      · split at h
        · split at h
          · cases h
          · obtain ⟨a, ha, e⟩ := Option.map_eq_some_iff.1 h
            cases e; exact deleteLink_length ha
        · exact compactRight_length h

/-- rt/container/BTree.h:398-445, `tryCompact`: the resulting `m_root`. -/
def tryCompact (T : Traits K V) (n : Node K V) (c : Ctx K V) : Option (Tree K V) :=
  match c with
  | [] =>
    if n.size = 0 then some none
    else
      match n with
      | .inner [l] => some (some l.2)
      | _ => some (some n)
  | f :: fs =>
    match h : compactStep T n f fs with
    | none => none
    | some none => some (some (zip n (f :: fs)))
    | some (some r) => tryCompact T (.inner r.1) r.2
termination_by c.length
decreasing_by have := compactStep_length h; simp_wf; omega

/-- The loop of rt/container/BTree.h:534-550. -/
def updateLoop [DecidableEq K] (T : Traits K V) (k : K) : Ctx K V → Option (Ctx K V)
  | [] => some []
  | f :: fs =>
    if (match f.left.getLast? with | none => true | some l => !T.less k l.1) = false then none
    else if (match f.right.head? with | none => true | some r => !T.less r.1 k) = false then none
    else if k = f.key then some (f :: fs)
    else if f.left.length = 0 then
      match updateLoop T k fs with
      | none => none
      | some fs' => some ({ f with key := k } :: fs')
    else some ({ f with key := k } :: fs)

/-- rt/container/BTree.h:526-553, `updateLinkIndex`, on a leaf with context `c`. -/
def updateLinkIndex [DecidableEq K] (T : Traits K V) (items : List V) (pos : Nat) (c : Ctx K V) :
    Option (Ctx K V) :=
  match items with
  | [] => some c
  | v :: _ => if pos = 0 then updateLoop T (T.idx v) c else some c

/-- rt/container/BTree.h:448-524, a valid `Iterator`: a leaf, where it is, and a position in it. -/
structure Iter (K V : Type) where
  items : List V
  ctx : Ctx K V
  pos : Nat

/-- rt/container/BTree.h:467-471, `Iterator(leaf, pos)`. -/
def mkIter (T : Traits K V) (items : List V) (c : Ctx K V) (pos : Nat) : Option (Iter K V) :=
  if pos < T.cap then some ⟨items, c, pos⟩ else none

/-- rt/container/BTree.h:478-481, `getItem`. -/
def Iter.get (it : Iter K V) : Option V := it.items[it.pos]?

/-- rt/container/BTree.h:483-494, `next`; `some none` is the end. -/
def Iter.next (it : Iter K V) : Option (Option (Iter K V)) :=
  if it.pos + 1 < it.items.length then some (some { it with pos := it.pos + 1 })
  else
    match rightSibling it.items it.ctx with
    | none => none
    | some none => some none
    | some (some (items, c)) => some (some ⟨items, c, 0⟩)

/-- rt/container/BTree.h:496-505, `prev`; stepping before the first item reads through a null
pointer. -/
def Iter.prev (it : Iter K V) : Option (Iter K V) :=
  if it.pos > 0 then some { it with pos := it.pos - 1 }
  else
    match leftSibling it.items it.ctx with
    | some (some (items, c)) => if items.length > 0 then some ⟨items, c, items.length - 1⟩ else none
    | _ => none

/-- rt/container/BTree.h:580-594, `findLastLessThan`. -/
def findLastLessThan (T : Traits K V) (t : Tree K V) (x : K) : Option (Option (Iter K V)) :=
  match t with
  | none => some none
  | some root =>
    match descend T x root [] with
    | none => none
    | some (items, c) =>
      match greaterOrEqualPos T items x with
      | none => none
      | some pos =>
        if pos > 0 then (mkIter T items c (pos - 1)).map some
        else
          match leftSibling items c with
          | none => none
          | some none => some none
          | some (some (items', c')) => (mkIter T items' c' (items'.length - 1)).map some

/-- rt/container/BTree.h:596-607, `findFirstGreaterOrEqualTo`. -/
def findFirstGE (T : Traits K V) (t : Tree K V) (x : K) : Option (Option (Iter K V)) :=
  match t with
  | none => some none
  | some root =>
    match descend T x root [] with
    | none => none
    | some (items, c) =>
      match greaterOrEqualPos T items x with
      | none => none
      | some pos =>
        if pos ≥ items.length then
          match rightSibling items c with
          | none => none
          | some none => some none
          | some (some (items', c')) => (mkIter T items' c' 0).map some
        else (mkIter T items c pos).map some

/-- rt/container/BTree.h:609-625, `prepareInsert`, with `split` (391-396). -/
def prepareInsert (T : Traits K V) (t : Tree K V) (x : K) : Option (Iter K V) :=
  let root := match t with
    | none => .leaf []
    | some r => r
  match descend T x root [] with
  | none => none
  | some (items, c) =>
    match insertPos T items x with
    | none => none
    | some pos =>
      if items.length ≥ T.cap then
        match splitList items with
        | none => none
        | some (a, b) =>
          match insertRightChild T (.leaf a) (.leaf b) c with
          | none => none
          | some c' =>
            if pos > a.length then
              match stepRight (.leaf a) c' with
              | none => none
              | some (_, c'') => mkIter T b c'' (pos - a.length)
            else mkIter T a c' pos
      else mkIter T items c pos

/-- rt/container/BTree.h:627-641, `insert`. -/
def insert [DecidableEq K] (T : Traits K V) (t : Tree K V) (v : V) : Option (Tree K V) :=
  match prepareInsert T t (T.idx v) with
  | none => none
  | some it =>
    match insertItemAt T it.items it.pos v with
    | none => none
    | some items =>
      match updateLinkIndex T items it.pos it.ctx with
      | none => none
      | some c => some (some (zip (.leaf items) c))

/-- rt/container/BTree.h:678-688, `remove`, of an iterator into the tree. -/
def remove [DecidableEq K] (T : Traits K V) (it : Iter K V) : Option (V × Tree K V) :=
  match it.get with
  | none => none
  | some v =>
    match deleteItem T it.items it.pos it.ctx with
    | none => none
    | some (items, c) =>
      match updateLinkIndex T items it.pos c with
      | none => none
      | some c' =>
        match tryCompact T (.leaf items) c' with
        | none => none
        | some t => some (v, t)

/-- rt/container/BTree.h:690-702, `begin`. -/
def begin (T : Traits K V) (t : Tree K V) : Option (Option (Iter K V)) :=
  match t with
  | none => some none
  | some root =>
    match leftmost root [] with
    | none => none
    | some (items, c) => (mkIter T items c 0).map some

/-- rt/container/BTree.h:708-711, `front`. -/
def front (T : Traits K V) (t : Tree K V) : Option V :=
  match begin T t with
  | some (some it) => it.get
  | _ => none

/-- rt/container/BTree.h:713-717, `popFront`. -/
def popFront [DecidableEq K] (T : Traits K V) (t : Tree K V) : Option (V × Tree K V) :=
  match begin T t with
  | some (some it) => remove T it
  | _ => none

end Verif.BTree

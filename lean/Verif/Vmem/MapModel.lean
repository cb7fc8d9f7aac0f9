import Verif.Vmem.ContIter
import Mathlib.Order.Defs.LinearOrder

/-!
# Maps on a vmem pool

Model of `src/x/vmem_map.x.h`; line numbers of `map` refer to this file.  A map has a container of values,
a stack of key levels (level 0 is the one next to the values) and, during each call, a temporary stack with
the path from the top key page to the value page.

Simplifications, in addition to those of `PagesModel.lean`:
* What is stored in a page is a `Cell`: an item of one of the four kinds of containers, or the zeros of a new
  page.  A cell of another kind than the one that is read gives an arbitrary key (`junk`) and the page `nil`.
* States: number 1 is the container of the values, 2 the stack of key levels, 3 the path, `4 + l` key level `l`.
  The code keeps the state of a key level inside the page of the stack; here only the pages taken by the
  stack and by the path are modelled, the number of levels and the positions on the path are kept beside them.
  Reading them back is what C26 and C27 say about stacks.
* The keys are linearly ordered by `vmem_is_less` and `vmem_is_less_or_equal`
  (`src/vmem_util.h`), and `vmem_are_equal` is their equality.
* An exception in a `noexcept` function sets `bad`.
-/

namespace Abc.Vmem.Map

open Abc.Vmem.Pages

/-- What a page can hold: `vmem_map_value`, `vmem_map_key`, `vmem_container_state`, `vmem_page_pos_t`, or zeros. -/
inductive Cell (K V : Type) where
  | zero
  | val (k : K) (v : V)
  | sep (k : K) (p : Nat)
  | lev (l : Nat)
  | pos (p : Nat)
deriving DecidableEq

/-- The parameters of a map: how many pages can be locked, the longest file, whether there is a log, the
capacities of a value page, of a key page, of a page of the stack and of a page of the path, whether a page has
room behind the last value for reading one more key (`vmem_page_size` is not a multiple of the size of a
value), the key that is all zeros, and the key read from a cell of another kind. -/
structure MCfg (K V : Type) where
  max : Nat
  limit : Nat
  log : Bool
  capV : Nat
  capK : Nat
  capS : Nat
  capP : Nat
  spare : Bool
  zeroKey : K
  junk : Cell K V → K

variable {K V : Type}

/-- `vmem_map_value_level` and `vmem_map_key_level` balance all insertions and erasures, `src/i/vmem_map.i.h`, `balance_insert` and `balance_erase`. -/
def allCfg (m : MCfg K V) (cap : Nat) : Cfg := ⟨m.max, cap, m.limit, m.log, true, true, true, true, true, true⟩

/-- A `vmem_stack` never balances, `src/i/vmem_list.i.h` 133-134. -/
def noneCfg (m : MCfg K V) (cap : Nat) : Cfg := ⟨m.max, cap, m.limit, m.log, false, false, false, false, false, false⟩

/-- The key of an item of a value page. -/
def valKey (m : MCfg K V) : Cell K V → K
  | .val k _ => k
  | .zero => m.zeroKey
  | c => m.junk c

/-- The key of an item of a key page. -/
def sepKey (m : MCfg K V) : Cell K V → K
  | .sep k _ => k
  | .zero => m.zeroKey
  | c => m.junk c

/-- The page position in an item of a key page. -/
def sepPage : Cell K V → Nat
  | .sep _ p => p
  | .zero => 0
  | _ => nil

/-- The key in a lead; the items of a lead without items are zeros, `container` 44-80. -/
def leadKey (m : MCfg K V) : Option (Cell K V) → K
  | none => m.zeroKey
  | some (.val k _) => k
  | some (.sep k _) => k
  | some .zero => m.zeroKey
  | some c => m.junk c

/-- The first `i` in `[i, i + n)` for which the test fails, or `i + n`: the loops of `map` 577, 706 and 748. -/
def scan (f : Nat → Bool) : Nat → Nat → Nat
  | 0, i => i
  | n + 1, i => if f i then scan f n (i + 1) else i

/-- An empty container, `vmem_container_state`. -/
def CState.new : CState := ⟨nil, nil, 0⟩

variable [LinearOrder K]

/-- The child chosen on a key page, `map` 699-711. -/
def routeChild (m : MCfg K V) (h : Heap (Cell K V)) (p : Nat) (key : K) : Nat :=
  let q := h.pages p
  sepPage (q.items (scan (fun i => decide (sepKey m (q.items i) ≤ key)) (q.count - 1) 1 - 1))

/-- `path.push_back`, `map` 681 and 718. -/
def pushPath (m : MCfg K V) (held : List Nat) (h : Heap (Cell K V)) (p : Nat) (path : List Nat) : Heap (Cell K V) × List Nat :=
  match insert2 (noneCfg m m.capP) held h 3 (cend (h.states 3)) (.pos p) with
  | none => (h.check false, path)
  | some r => (r.heap, if r.itr = some (cend (r.heap.states 3)) then path else path ++ [p])

/-- The loop over the key levels, `map` 683-721; `n` levels are left.  Result: heap, path, page. -/
def descend (m : MCfg K V) (key : K) : Nat → Heap (Cell K V) → List Nat → Nat → Heap (Cell K V) × List Nat × Nat
  | 0, h, path, p => (h, path, p)
  | n + 1, h, path, p =>
    if p = nil then (h, path, p)
    else if canLock m.max [] p = false then (h, path, nil)
    else
      let child := routeChild m h p key
      let r := if n = 0 then (h, path) else pushPath m [p] h child path
      descend m key n r.1 r.2 child

/-- `find_result2`: the heap, the path, the iterator and `ok`. -/
structure Found (K V : Type) where
  heap : Heap (Cell K V)
  path : List Nat
  itr : Itr
  ok : Bool

/-- The iterator of a result that was not set. -/
def noItr : Itr := ⟨nil, nilItem, .none⟩

/-- The part of `find2` that finds the value page, `map` 667-731. -/
def findPage (m : MCfg K V) (h : Heap (Cell K V)) (depth : Nat) (key : K) : Heap (Cell K V) × List Nat × Nat :=
  if depth = 0 then (h, [], (h.states 1).front)
  else
    let root := (h.states (3 + depth)).front
    let r := pushPath m [] h root []
    descend m key depth r.1 r.2 root

/-- The position on a value page, `map` 747-750. -/
def valuePos (m : MCfg K V) (q : Page (Cell K V)) (key : K) : Nat :=
  scan (fun i => decide (valKey m (q.items i) < key)) q.count 0

/-- `find2`, `map` 661-767.  The page position is compared with the nil of items (758). -/
def find2 (m : MCfg K V) (h : Heap (Cell K V)) (depth : Nat) (key : K) : Found K V :=
  let d := findPage m h depth key
  if d.2.2 = nil then ⟨d.1, d.2.1, noItr, false⟩
  else if canLock m.max [] d.2.2 = false then ⟨d.1, d.2.1, noItr, false⟩
  else
    let q := d.1.pages d.2.2
    let i := valuePos m q key
    ⟨d.1.check (decide (i < m.capV) || m.spare), d.2.1,
      if d.2.2 ≠ nilItem ∧ i ≠ nilItem then ⟨d.2.2, i, .none⟩ else noItr,
      decide (valKey m (q.items i) = key)⟩

/-- The end of the life of a `find_result2`: `~vmem_temp` clears the path, `src/x/vmem_list.x.h` 61-64.  The
state of the path is a new one in the next call. -/
def dropPath (m : MCfg K V) (h : Heap (Cell K V)) : Heap (Cell K V) := (clear m.max [] h 3).setState 3 CState.new

/-- `key_item_pos`, `map` 558-592. -/
def keyItemPos (m : MCfg K V) (held : List Nat) (h : Heap (Cell K V)) (p : Nat) (key : K) : Nat :=
  if canLock m.max held p = false then nilItem
  else scan (fun i => decide (sepKey m ((h.pages p).items i) < key)) (h.pages p).count 0

/-- The result of `update_key_levels`: heap, number of levels, `ok`. -/
structure Upd (K V : Type) where
  heap : Heap (Cell K V)
  depth : Nat
  ok : Bool

/-- The loop of `update_key_levels` for an insertion, `map` 423-449 and 480-496: level, rest of the path from
the back, heap and leads.  Result: heap, `ok` and leads. -/
def upInsert (m : MCfg K V) : Nat → List Nat → Heap (Cell K V) → Lead (Cell K V) → Lead (Cell K V) →
    Heap (Cell K V) × Bool × Lead (Cell K V) × Lead (Cell K V)
  | _, [], h, a, b => (h, true, a, b)
  | l, p :: rp, h, a, b =>
    if a.op = .none ∧ b.op = .none then (h, true, a, b)
    else
      let held := [(h.states 2).front]
      let i := keyItemPos m held h p (leadKey m a.fst)
      if i = nilItem then (h, false, a, b)
      else match insert2 (allCfg m m.capK) held h (4 + l) ⟨p, i, .none⟩ (.sep (leadKey m a.fst) a.page) with
        | none => (h.check false, false, a, b)
        | some r => upInsert m (l + 1) rp r.heap r.lead0 r.lead1

/-- One `push_back` of the new top level, or of its state to the stack, `map` 509, 515 and 517. -/
def pushTo (c : Cfg) (h : Heap (Cell K V)) (sid : Nat) (x : Cell K V) : Heap (Cell K V) :=
  match insert2 c [] h sid (cend (h.states sid)) x with
  | none => h.check false
  | some r => r.heap

/-- A new key level at the top, `map` 500-518. -/
def newLevel (m : MCfg K V) (h : Heap (Cell K V)) (depth : Nat) (a b : Lead (Cell K V)) : Upd K V :=
  let h1 := pushTo (allCfg m m.capK) (h.setState (4 + depth) CState.new) (4 + depth) (.sep (leadKey m b.fst) b.page)
  let h2 := pushTo (allCfg m m.capK) h1 (4 + depth) (.sep (leadKey m a.fst) a.page)
  match insert2 (noneCfg m m.capS) [] h2 2 (cend (h2.states 2)) (.lev depth) with
  | none => ⟨h2.check false, depth, true⟩
  | some r => ⟨r.heap, if r.itr = some (cend (r.heap.states 2)) then depth else depth + 1, true⟩

/-- `update_key_levels` for an insertion, `map` 398-555. -/
def updateInsert (m : MCfg K V) (h : Heap (Cell K V)) (depth : Nat) (path : List Nat) (a b : Lead (Cell K V)) : Upd K V :=
  if a.op = .none ∧ b.op = .none then ⟨h, depth, true⟩
  else if depth ≠ path.length then ⟨h, depth, false⟩
  else
    let u := upInsert m 0 path.reverse h a b
    if u.2.1 = false then ⟨u.1, depth, false⟩
    else if u.2.2.1.page ≠ nil then newLevel m u.1 depth u.2.2.1 u.2.2.2
    else ⟨u.1, depth, true⟩

/-- The replacement of a key on a key page, `map` 455-467. -/
def replaceKey (m : MCfg K V) (h : Heap (Cell K V)) (p i : Nat) (key : K) : Heap (Cell K V) :=
  (h.mod p (fun q => { q with items := fun j => if j = i then .sep key (sepPage (q.items i)) else q.items j })).check (decide (i < m.capK))

/-- The loop of `update_key_levels` for an erasure, `map` 423-430 and 451-496. -/
def upErase (m : MCfg K V) : Nat → List Nat → Heap (Cell K V) → Lead (Cell K V) → Lead (Cell K V) → Heap (Cell K V) × Bool
  | _, [], h, _, _ => (h, true)
  | l, p :: rp, h, a, b =>
    if a.op = .none ∧ b.op = .none then (h, true)
    else
      let held := [(h.states 2).front]
      let j := keyItemPos m held h p (leadKey m a.fst)
      if a.op = .replace ∧ j = nilItem then (h, false)
      else
        let h1 := if a.op = .replace then replaceKey m h p j (leadKey m a.snd) else h
        let i := keyItemPos m held h1 p (leadKey m b.fst)
        if i = nilItem then (h1, false)
        else match erase2 (allCfg m m.capK) held h1 (4 + l) ⟨p, i, .none⟩ with
          | none => (h1.check false, false)
          | some r => upErase m (l + 1) rp r.heap r.lead0 r.lead1

/-- `update_key_levels` for an erasure, `map` 398-555; `ok` is not looked at by the caller. -/
def updateErase (m : MCfg K V) (h : Heap (Cell K V)) (depth : Nat) (path : List Nat) (a b : Lead (Cell K V)) : Upd K V :=
  if a.op = .none ∧ b.op = .none then ⟨h, depth, true⟩
  else if depth ≠ path.length then ⟨h, depth, false⟩
  else
    let u := upErase m 0 path.reverse h a b
    if u.2 = false then ⟨u.1, depth, false⟩
    else if depth ≠ 0 ∧ (u.1.states (3 + depth)).total = 1 then
      match erase2 (noneCfg m m.capS) [] u.1 2 (crend m.max [] u.1 (u.1.states 2)) with
        | none => ⟨u.1.check false, depth, true⟩
        | some r => ⟨r.heap, depth - 1, true⟩
    else ⟨u.1, depth, true⟩

/-- A map: the pool and the number of key levels. -/
structure MSt (K V : Type) where
  heap : Heap (Cell K V)
  depth : Nat

/-- The only map in a new pool. -/
def MSt.init : MSt K V := ⟨Heap.init .zero, 0⟩

/-- What a caller sees of an iterator: the item it can be dereferenced to, if any. -/
def seen (m : MCfg K V) (h : Heap (Cell K V)) (i : Itr) : Option (Cell K V) :=
  if canDeref i then deref m.max [] h i else none

/-- `insert`, `map` 253-291 and 309-329: map, iterator, `ok`. -/
def MSt.insert (m : MCfg K V) (s : MSt K V) (k : K) (v : V) : MSt K V × Itr × Bool :=
  let f := find2 m s.heap s.depth k
  if f.ok then (⟨dropPath m f.heap, s.depth⟩, f.itr, false)
  else match insert2 (allCfg m m.capV) [] f.heap 1 f.itr (.val k v) with
    | none => (⟨dropPath m (f.heap.check false), s.depth⟩, noItr, false)
    | some r =>
      let u := updateInsert m r.heap s.depth f.path r.lead0 r.lead1
      (⟨dropPath m u.heap, u.depth⟩, if u.ok then r.itr.getD noItr else noItr, u.ok)

/-- `erase` of a key, `map` 336-359 and 372-392: map and the number of erased items. -/
def MSt.erase (m : MCfg K V) (s : MSt K V) (k : K) : MSt K V × Nat :=
  let f := find2 m s.heap s.depth k
  if f.ok = false then (⟨dropPath m f.heap, s.depth⟩, 0)
  else match erase2 (allCfg m m.capV) [] f.heap 1 f.itr with
    | none => (⟨dropPath m (f.heap.check false), s.depth⟩, 0)
    | some r =>
      let u := updateErase m r.heap s.depth f.path r.lead0 r.lead1
      (⟨dropPath m u.heap, u.depth⟩, 1)

/-- `find`, `map` 771-775. -/
def MSt.find (m : MCfg K V) (s : MSt K V) (k : K) : MSt K V × Itr :=
  let f := find2 m s.heap s.depth k
  (⟨dropPath m f.heap, s.depth⟩, if f.ok then f.itr else cend ((dropPath m f.heap).states 1))

/-- What iterating from `begin()` to `end()` shows, `map` 617-635 and 815-824; at most `n` steps. -/
def MSt.walk (m : MCfg K V) (s : MSt K V) (n : Nat) : List (Option (Cell K V)) := cwalk m.max [] s.heap 1 n (cbegin (s.heap.states 1))

/-- The calls of a client. -/
inductive MOp (K V : Type) where
  | insert (k : K) (v : V)
  | erase (k : K)
  | find (k : K)

/-- What a client sees: whether it was inserted and the item there, the number of erased items, the found item. -/
inductive MAns (K V : Type) where
  | inserted (ok : Bool) (item : Option (Cell K V))
  | erased (n : Nat)
  | found (item : Option (Cell K V))
deriving DecidableEq

def MSt.step (m : MCfg K V) (s : MSt K V) : MOp K V → MSt K V × MAns K V
  | .insert k v => let r := s.insert m k v; (r.1, .inserted r.2.2 (seen m r.1.heap r.2.1))
  | .erase k => let r := s.erase m k; (r.1, .erased r.2)
  | .find k => let r := s.find m k; (r.1, .found (seen m r.1.heap r.2))

def MSt.run (m : MCfg K V) : MSt K V → List (MOp K V) → MSt K V × List (MAns K V)
  | s, [] => (s, [])
  | s, o :: os =>
    let r := s.step m o
    let t := r.1.run m os
    (t.1, r.2 :: t.2)

/-! ## What is expected of a map -/

/-- A map as a list of keys and values, in the order of the insertions: the list after the calls and the answers. -/
def spec : List (K × V) → List (MOp K V) → List (K × V) × List (MAns K V)
  | t, [] => (t, [])
  | t, .insert k v :: os => match t.find? (fun e => e.1 = k) with
    | some e => let r := spec t os; (r.1, .inserted false (some (.val e.1 e.2)) :: r.2)
    | none => let r := spec (t ++ [(k, v)]) os; (r.1, .inserted true (some (.val k v)) :: r.2)
  | t, .erase k :: os =>
    let r := spec (t.filter (fun e => e.1 ≠ k)) os
    (r.1, .erased (if (t.find? (fun e => e.1 = k)).isSome then 1 else 0) :: r.2)
  | t, .find k :: os => let r := spec t os; (r.1, .found ((t.find? (fun e => e.1 = k)).map (fun e => .val e.1 e.2)) :: r.2)

/-- The map behaves as expected: no undefined behaviour, the answers are those of the list, `size()` is the
length of the list and iterating shows its elements with increasing keys. -/
def Behaves (m : MCfg K V) (os : List (MOp K V)) : Prop :=
  let r := MSt.run m .init os
  let t := spec [] os
  r.1.heap.bad = false ∧ r.2 = t.2 ∧ (r.1.heap.states 1).total = t.1.length ∧
  ∃ l : List (K × V), l.Pairwise (fun a b => a.1 < b.1) ∧ (∀ e, e ∈ l ↔ e ∈ t.1) ∧
    r.1.walk m (l.length + 1) = l.map (fun e => some (.val e.1 e.2))

/-- Capacities with which the containers work (C24, C59), a log, and enough pages that can be locked. -/
structure MCfg.Ok (m : MCfg K V) : Prop where
  max : 8 ≤ m.max
  log : m.log = true
  capV : 2 ≤ m.capV ∧ m.capV < nilItem
  capK : 2 ≤ m.capK ∧ m.capK < nilItem
  capS : 1 ≤ m.capS ∧ m.capS < nilItem
  capP : 1 ≤ m.capP ∧ m.capP < nilItem
  limit : m.limit ≤ nil

/-- No call erases. -/
def MOp.keeps : MOp K V → Bool
  | .erase _ => false
  | _ => true

end Abc.Vmem.Map

import Mathlib.Tactic.Common

/-!
# Pages, linked pages and containers on a vmem pool

Model of `src/x/vmem_linked.x.h`, `src/x/vmem_container.x.h` and the page allocation in
`src/x/vmem_pool.x.h`.  Line numbers of `linked`, `container` and `pool` refer to these files.

Simplifications:
* A page is its link fields, its item count and its items; bytes are not modelled.  The capacity of a
  page is a parameter (`container` 82-96).  Writing past the capacity and other undefined behaviour set `bad`.
* The states (`vmem_linked_state`, `vmem_container_state`) are kept in an array; number 0 is the list of
  free pages, which the code keeps on the root page, the other ones belong to the clients.
* Whether a page can be locked is decided as proved in C20: a page that is locked can be locked
  again, any other page if fewer than `max` pages are locked.  The model passes along the list of
  pages locked by the callers.
* `create_page` fails when the file has `limit` pages.
* The pool is ready (`pool` 318, 345); page positions and counts do not wrap.
* Log messages are left out; what is kept is that `operator ++` of an iterator uses the log pointer
  without checking it (`src/x/vmem_iterator.x.h` 148-175).
-/

namespace Abc.Vmem.Pages

/-- `vmem_page_pos_nil`, `src/i/vmem_pool.i.h` 45. -/
def nil : Nat := 18446744073709551615

/-- `vmem_item_pos_nil`, `src/i/vmem_pool.i.h` 46. -/
def nilItem : Nat := 65535

/-- A page with the layout of `vmem_container_page`, `src/i/vmem_layout.i.h` 55-76. -/
structure Page (α : Type) where
  pos : Nat
  prev : Nat
  next : Nat
  count : Nat
  items : Nat → α

/-- `vmem_container_state`, `src/i/vmem_layout.i.h` 128-142, without the item size, which only the
constructor looks at. -/
structure CState where
  front : Nat
  back : Nat
  total : Nat
deriving DecidableEq, Repr

/-- The pool file and the states. -/
structure Heap (α : Type) where
  pages : Nat → Page α
  states : Nat → CState
  len : Nat
  bad : Bool

/-- What does not change: `MaxMappedPages`, the page capacity, the limit of the file, whether there is a
log, and the balance flags (`src/i/vmem_container.i.h` 48-80). -/
structure Cfg where
  max : Nat
  cap : Nat
  limit : Nat
  log : Bool
  insBegin : Bool
  insInner : Bool
  insEnd : Bool
  erBegin : Bool
  erInner : Bool
  erEnd : Bool

variable {α : Type}

/-- A write to a page. -/
def Heap.mod (h : Heap α) (p : Nat) (f : Page α → Page α) : Heap α :=
  { h with pages := fun q => if q = p then f (h.pages p) else h.pages q }

/-- A write to a state. -/
def Heap.setState (h : Heap α) (s : Nat) (v : CState) : Heap α :=
  { h with states := fun t => if t = s then v else h.states t }

/-- Undefined behaviour unless `ok`. -/
def Heap.check (h : Heap α) (ok : Bool) : Heap α := { h with bad := h.bad || !ok }

/-- The number of different pages in a list. -/
def distinct : List Nat → Nat
  | [] => 0
  | p :: l => if p ∈ l then distinct l else distinct l + 1

/-- Whether `lock_page` succeeds, `pool` 460-513; see C20. -/
def canLock (max : Nat) (held : List Nat) (p : Nat) : Bool := decide (p ∈ held) || decide (distinct held < max)

/-! ## Linked pages -/

/-- `vmem_iterator_edge`, `src/i/vmem_iterator.i.h`. -/
inductive Edge where
  | none | rbegin | fin
deriving DecidableEq, Repr

/-- An iterator of linked pages; the item position is always nil. -/
structure LItr where
  page : Nat
  edge : Edge
deriving DecidableEq, Repr

/-- `end_itr`, `linked` 680-682. -/
def lend : LItr := ⟨nil, .fin⟩

/-- `rbegin_itr`, `linked` 696-698. -/
def lrbegin : LItr := ⟨nil, .rbegin⟩

/-- `begin_itr`, `linked` 670-676. -/
def lbegin (s : CState) : LItr := if s.front = nil then lend else ⟨s.front, .none⟩

/-- `rend_itr`, `linked` 686-692. -/
def lrend (s : CState) : LItr := if s.back = nil then lrbegin else ⟨s.back, .none⟩

/-- `empty`, `linked` 158-161, `container` 238-241. -/
def isEmpty (s : CState) : Bool := decide (s.front = nil) || decide (s.back = nil)

/-- `next`, `linked` 578-617. -/
def lnext (max : Nat) (held : List Nat) (h : Heap α) (sid : Nat) (i : LItr) : LItr :=
  if i = lend then lend
  else if i = lrbegin then lbegin (h.states sid)
  else if i = lrend (h.states sid) then lend
  else if i.page = nil then lend
  else if canLock max held i.page = false then lend
  else ⟨(h.pages i.page).next, if (h.pages i.page).next = nil then .fin else .none⟩

/-- `prev`, `linked` 621-660. -/
def lprev (max : Nat) (held : List Nat) (h : Heap α) (sid : Nat) (i : LItr) : LItr :=
  if i = lrbegin then lrbegin
  else if i = lbegin (h.states sid) then lrbegin
  else if i = lend then lrend (h.states sid)
  else if i.page = nil then lrbegin
  else if canLock max held i.page = false then lrbegin
  else ⟨(h.pages i.page).prev, if (h.pages i.page).prev = nil then .rbegin else .none⟩

/-- Initialisation of the links of an inserted page, `linked` 286-289. -/
def initLinks (h : Heap α) (p : Nat) : Heap α := h.mod p (fun x => { x with pos := p, prev := nil, next := nil })

/-- Linking a page behind the back page, `linked` 309-312. -/
def linkBack (h : Heap α) (p back : Nat) : Heap α :=
  (h.mod back (fun x => { x with next := p })).mod p (fun x => { x with prev := back })

/-- Linking a page before the front page, `linked` 333-336. -/
def linkFront (h : Heap α) (p nxt : Nat) : Heap α :=
  (h.mod p (fun x => { x with next := nxt })).mod nxt (fun x => { x with prev := p })

/-- Linking a page between two pages, `linked` 351-356. -/
def linkBetween (h : Heap α) (p prv nxt : Nat) : Heap α :=
  (((h.mod prv (fun x => { x with next := p })).mod p (fun x => { x with prev := prv })).mod p
    (fun x => { x with next := nxt })).mod nxt (fun x => { x with prev := p })

/-- `insert_nostate`, `linked` 266-365; the result says whether it succeeded. -/
def insertNostate (max : Nat) (held : List Nat) (h : Heap α) (sid at_ p back : Nat) : Heap α × Bool :=
  if canLock max held p = false then (h, false)
  else if isEmpty (h.states sid) then (initLinks h p, true)
  else if at_ = nil then
    if canLock max (p :: held) back = false then (initLinks h p, false)
    else (linkBack (initLinks h p) p back, true)
  else if canLock max (p :: held) at_ = false then (initLinks h p, false)
  else if ((initLinks h p).pages at_).prev = nil then (linkFront (initLinks h p) p at_, true)
  else if canLock max (at_ :: p :: held) ((initLinks h p).pages at_).prev = false then (initLinks h p, false)
  else (linkBetween (initLinks h p) p ((initLinks h p).pages at_).prev at_, true)

/-- The update of the state after an insertion, `linked` 238-246. -/
def insertState (s : CState) (i : LItr) (p : Nat) : CState :=
  { s with
    front := if s.front = nil ∨ s.front = i.page then p else s.front
    back := if s.back = nil ∨ i.edge = .fin then p else s.back }

/-- `insert`, `linked` 216-262, after the checks of the iterator. -/
def linsert (max : Nat) (held : List Nat) (h : Heap α) (sid : Nat) (i : LItr) (p : Nat) : Heap α × LItr :=
  let r := insertNostate max held h sid i.page p (h.states sid).back
  if r.2 then (r.1.setState sid (insertState (r.1.states sid) i p), ⟨p, .none⟩)
  else (r.1, lend)

/-- `push_free_page_pos`, `pool` 397-420, with `push_back`, `linked` 189-191, and the constructor of
`vmem_linked`, `linked` 56-82. -/
def pushFree (max : Nat) (held : List Nat) (h : Heap α) (p : Nat) : Heap α :=
  if canLock max held 0 = false then h
  else (linsert max (0 :: held) h 0 lend p).1

/-- `free_page`, `pool` 340-352. -/
def freePage (max : Nat) (held : List Nat) (h : Heap α) (p : Nat) : Heap α :=
  if p = nil then h else pushFree max held h p

/-- The first half of `erase_nostate`, `linked` 429-449: the previous page. -/
def unlinkPrev (max : Nat) (held : List Nat) (h : Heap α) (p : Nat) : Heap α × Bool :=
  if (h.pages p).prev = nil then (h, true)
  else if canLock max held (h.pages p).prev = false then (h, false)
  else (h.mod (h.pages p).prev (fun x => { x with next := (h.pages p).next }), true)

/-- The second half of `erase_nostate`, `linked` 451-477: the next page. -/
def unlinkNext (max : Nat) (held : List Nat) (h : Heap α) (p : Nat) : Heap α × Bool :=
  if (h.pages p).next = nil then (h, true)
  else if canLock max held (h.pages p).next = false then (h, false)
  else (h.mod (h.pages p).next (fun x => { x with prev := (h.pages p).prev }), true)

/-- The back page exported by `erase_nostate`, `linked` 471-475. -/
def exportedBack (h : Heap α) (p : Nat) : Nat := if (h.pages p).next = nil then (h.pages p).prev else nil

/-- `erase_nostate`, `linked` 412-486: heap, success, exported back page. -/
def eraseNostate (max : Nat) (held : List Nat) (h : Heap α) (p : Nat) : Heap α × Bool × Nat :=
  if canLock max held p = false then (h, false, nil)
  else
    let r1 := unlinkPrev max (p :: held) h p
    if r1.2 = false then (r1.1, false, nil)
    else
      let r2 := unlinkNext max (p :: held) r1.1 p
      if r2.2 = false then (r2.1, false, nil)
      else (freePage max held r2.1 p, true, exportedBack r1.1 p)

/-- The update of the state after an erasure, `linked` 387-394. -/
def eraseState (s : CState) (p nextPage back : Nat) : CState :=
  { s with
    front := if s.front = p then nextPage else s.front
    back := if s.back = p then back else s.back }

/-- `erase`, `linked` 372-408, after the check of the iterator. -/
def lerase (max : Nat) (held : List Nat) (h : Heap α) (sid p : Nat) : Heap α × LItr :=
  let result := lnext max held h sid ⟨p, .none⟩
  let r := eraseNostate max held h p
  if r.2.1 then (r.1.setState sid (eraseState (r.1.states sid) p result.page r.2.2), result)
  else (r.1, lend)

/-- `splice`, `linked` 508-571, of state `o` behind state `s`; the two are different (509-511). -/
def splice (max : Nat) (held : List Nat) (h : Heap α) (s o : Nat) : Heap α :=
  if isEmpty (h.states o) then h
  else if isEmpty (h.states s) then
    h.setState s { h.states s with front := (h.states o).front, back := (h.states o).back }
  else if canLock max held (h.states s).back = false then h
  else if canLock max ((h.states s).back :: held) (h.states o).front = false then h
  else
    let h1 := h.mod (h.states s).back (fun x => { x with next := (h.states o).front })
    let h2 := h1.mod (h.states o).front (fun x => { x with prev := (h.states s).back })
    let h3 := h2.setState s { h.states s with back := (h.states o).back }
    h3.setState o { h3.states o with front := nil, back := nil }

/-- `clear`, `linked` 493-495 and `clear_linked`, `pool` 864-886. -/
def clear (max : Nat) (held : List Nat) (h : Heap α) (sid : Nat) : Heap α :=
  if canLock max held 0 = false then h else splice max (0 :: held) h 0 sid

/-! ## Allocation of pages -/

/-- `pop_free_page_pos`, `pool` 356-393.  `back()` reads the position field of the back page; if that
page cannot be locked it throws in a `noexcept` function, which is taken as undefined behaviour. -/
def popFree (max : Nat) (held : List Nat) (h : Heap α) : Heap α × Nat :=
  if canLock max held 0 = false then (h, nil)
  else if isEmpty (h.states 0) then (h, nil)
  else if canLock max (0 :: held) (h.states 0).back = false then (h.check false, nil)
  else ((lerase max (0 :: held) h 0 (h.states 0).back).1, (h.pages (h.states 0).back).pos)

/-- `create_page`, `pool` 424-453: a page of zeros at the end of the file. -/
def createPage (limit : Nat) (h : Heap α) : Heap α × Nat :=
  if h.len < limit then
    ({ h.mod h.len (fun x => { x with pos := 0, prev := 0, next := 0, count := 0 }) with len := h.len + 1 }, h.len)
  else (h, nil)

/-- `alloc_page`, `pool` 310-336. -/
def allocPage (max limit : Nat) (held : List Nat) (h : Heap α) : Heap α × Nat :=
  let r := popFree max held h
  if r.2 = nil then createPage limit r.1 else r

/-- A new pool: root page and start page, an empty list of free pages, `pool` 188-237. -/
def Heap.init (x : α) : Heap α where
  pages := fun _ => ⟨0, 0, 0, 0, fun _ => x⟩
  states := fun _ => ⟨nil, nil, 0⟩
  len := 2
  bad := false

/-! ## Containers -/

/-- An iterator of a container. -/
structure Itr where
  page : Nat
  item : Nat
  edge : Edge
deriving DecidableEq, Repr

/-- `end_itr`, `container` 1223-1232. -/
def cend (s : CState) : Itr := ⟨s.back, nilItem, .fin⟩

/-- `begin_itr`, `container` 1206-1219. -/
def cbegin (s : CState) : Itr := if s.front = nil then ⟨s.back, nilItem, .fin⟩ else ⟨s.front, 0, .none⟩

/-- `rbegin_itr`, `container` 1264-1273. -/
def crbegin (s : CState) : Itr := ⟨s.front, nilItem, .rbegin⟩

/-- `rend_itr`, `container` 1236-1260. -/
def crend (max : Nat) (held : List Nat) (h : Heap α) (s : CState) : Itr :=
  if s.back = nil then ⟨s.front, nilItem, .rbegin⟩
  else if canLock max held s.back = false then ⟨s.front, nilItem, .rbegin⟩
  else ⟨s.back, (h.pages s.back).count - 1, .none⟩

/-- `can_deref`, `src/x/vmem_iterator.x.h` 83-88. -/
def canDeref (i : Itr) : Bool := decide (i.page ≠ nil) && decide (i.item ≠ nilItem) && decide (i.edge = .none)

/-- `next`, `container` 1098-1137. -/
def cnext (max : Nat) (held : List Nat) (h : Heap α) (sid : Nat) (i : Itr) : Itr :=
  if i.item = nilItem ∧ i.edge = .rbegin then cbegin (h.states sid)
  else if i.page = nil then cend (h.states sid)
  else if canLock max held i.page = false then cend (h.states sid)
  else if i.item < (h.pages i.page).count - 1 then ⟨i.page, i.item + 1, .none⟩
  else if (h.pages i.page).next = nil then cend (h.states sid)
  else ⟨(h.pages i.page).next, 0, .none⟩

/-- `prev`, `container` 1141-1191. -/
def cprev (max : Nat) (held : List Nat) (h : Heap α) (sid : Nat) (i : Itr) : Itr :=
  if i.item = nilItem ∧ i.edge = .fin then crend max held h (h.states sid)
  else if i.page = nil then crbegin (h.states sid)
  else if canLock max held i.page = false then crbegin (h.states sid)
  else if 0 < i.item then ⟨i.page, i.item - 1, .none⟩
  else if (h.pages i.page).prev = nil then crbegin (h.states sid)
  else if canLock max (i.page :: held) (h.pages i.page).prev = false then crbegin (h.states sid)
  else ⟨(h.pages i.page).prev, (h.pages (h.pages i.page).prev).count - 1, .none⟩

/-- Dereferencing an iterator (`src/x/vmem_iterator.x.h` 232-253, `container` 1195-1202,
`pool` 1166-1187); `none` is the exception.  The edge is not looked at. -/
def deref (max : Nat) (held : List Nat) (h : Heap α) (i : Itr) : Option α :=
  if i.page = nil ∨ i.item = nilItem then none
  else if canLock max held i.page = false then none
  else some ((h.pages i.page).items i.item)

/-- `page_leads` of a result: what a map has to change in its key levels
(`src/i/vmem_container.i.h`, `vmem_container_page_lead`). -/
inductive LeadOp where
  | none | insert | original | replace | erase
deriving DecidableEq, Repr

structure Lead (α : Type) where
  op : LeadOp
  page : Nat
  fst : Option α
  snd : Option α

def Lead.default : Lead α := ⟨.none, nil, none, none⟩

/-- `result2`; the iterator `none` is an invalid one. -/
structure Res (α : Type) where
  heap : Heap α
  itr : Option Itr
  lead0 : Lead α
  lead1 : Lead α

/-- The result of a failed operation. -/
def Res.fail (h : Heap α) : Res α := ⟨h, none, .default, .default⟩

/-- `insert_page_after`, `container` 598-650: heap and new page. -/
def insertPageAfter (c : Cfg) (held : List Nat) (h : Heap α) (sid after : Nat) : Heap α × Option Nat :=
  let r := allocPage c.max c.limit held h
  if r.2 = nil then (r.1, none)
  else if canLock c.max held r.2 = false then (r.1, none)
  else
    let i := if after = nil then lend else lnext c.max (r.2 :: held) r.1 sid ⟨after, .none⟩
    let h1 := if after = nil then r.1 else r.1.check c.log
    let q := linsert c.max (r.2 :: held) h1 sid i r.2
    if q.2 = lend then (freePage c.max held q.1 r.2, none)
    else (q.1.mod r.2 (fun x => { x with count := 0 }), some r.2)

/-- The items of a page after `x` was inserted at `k`, `container` 555-562. -/
def shiftIn (count k : Nat) (x : α) (items : Nat → α) : Nat → α := fun j =>
  if j = k then x else if k < j ∧ j ≤ count then items (j - 1) else items j

/-- `insert_with_capacity`, `container` 545-574. -/
def insertWithCapacity (c : Cfg) (h : Heap α) (p item : Nat) (x : α) : Res α :=
  let n := (h.pages p).count
  let k := if item = nilItem then n else item
  ⟨(h.mod p (fun q => { q with count := q.count + 1, items := shiftIn n k x q.items })).check (decide (k ≤ n) && decide (n < c.cap)),
    some ⟨p, k, .none⟩, .default, .default⟩

/-- `balance_split`, `container` 578-594. -/
def balanceSplit (c : Cfg) (h : Heap α) (p new : Nat) : Heap α :=
  let h1 := h.mod new (fun q => { q with count := c.cap / 2, items := fun j =>
    if j < c.cap / 2 then (h.pages p).items (c.cap - c.cap / 2 + j) else q.items j })
  h1.mod p (fun q => { q with count := c.cap - c.cap / 2 })

/-- `should_balance_insert`, `container` 654-668. -/
def shouldBalanceInsert (c : Cfg) (h : Heap α) (i : Itr) : Bool :=
  if (h.pages i.page).prev = nil ∧ i.item = 0 then c.insBegin
  else if (h.pages i.page).next = nil ∧ i.item = nilItem ∧ i.edge = .fin then c.insEnd
  else c.insInner

/-- The choice of the page in `insert_with_overflow`, `container` 517-527. -/
def insertInto (c : Cfg) (h : Heap α) (i : Itr) (new : Nat) (x : α) : Res α :=
  if i.item ≠ nilItem ∧ i.item ≤ (h.pages i.page).count then insertWithCapacity c h i.page i.item x
  else insertWithCapacity c h new
    (if i.item ≠ nilItem then i.item - (h.pages i.page).count else (h.pages new).count) x

/-- `insert_with_overflow`, `container` 497-541. -/
def insertWithOverflow (c : Cfg) (held : List Nat) (h : Heap α) (sid : Nat) (i : Itr) (x : α) : Res α :=
  match insertPageAfter c held h sid i.page with
  | (h1, none) => .fail h1
  | (h1, some new) =>
    let r := insertInto c (if shouldBalanceInsert c h i then balanceSplit c h1 i.page new else h1) i new x
    { r with
      lead0 := ⟨.insert, new, some ((r.heap.pages new).items 0), none⟩
      lead1 := ⟨.original, i.page, some ((r.heap.pages i.page).items 0), none⟩ }

/-- `insert_nostate`, `insert_empty`, `insert_nonempty`, `container` 404-493. -/
def cinsertNostate (c : Cfg) (held : List Nat) (h : Heap α) (sid : Nat) (i : Itr) (x : α) : Res α :=
  if i.page = nil then
    match insertPageAfter c held h sid nil with
    | (h1, none) => .fail h1
    | (h1, some new) => insertWithCapacity c h1 new 0 x
  else if canLock c.max held i.page = false then .fail h
  else if (h.pages i.page).count = c.cap then insertWithOverflow c (i.page :: held) h sid i x
  else insertWithCapacity c h i.page i.item x

/-- The update of the state in `insert2`, `container` 345-360. -/
def cinsertState (s : CState) (i r : Itr) (lead : Nat) : CState where
  front := if s.front = nil then r.page else s.front
  back := if s.back = nil then r.page else if s.back = i.page ∧ lead ≠ nil then lead else s.back
  total := s.total + 1

/-- `insert2`, `container` 323-376; `none` is the exception. -/
def insert2 (c : Cfg) (held : List Nat) (h : Heap α) (sid : Nat) (i : Itr) (x : α) : Option (Res α) :=
  if i.page = nil ∧ (i.item ≠ nilItem ∨ isEmpty (h.states sid) = false) then none
  else if i.item = nilItem ∧ i.page ≠ (h.states sid).back ∧ i.edge ≠ .fin then none
  else
    let r := cinsertNostate c held h sid i x
    match r.itr with
    | some j => some { r with heap := r.heap.setState sid (cinsertState (r.heap.states sid) i j r.lead0.page) }
    | none => some { r with itr := some (cend (r.heap.states sid)), lead0 := .default, lead1 := .default }

/-- `erase_page` and `erase_page_pos`, `container` 1021-1063: the page is freed by `linked.erase` and
again by `page.free()`. -/
def erasePage (c : Cfg) (held : List Nat) (h : Heap α) (sid p : Nat) : Heap α :=
  freePage c.max held (lerase c.max (p :: held) h sid p).1 p

/-- The items of a page after the item at `k` was removed, `container` 823-824. -/
def shiftOut (count k : Nat) (items : Nat → α) : Nat → α := fun j =>
  if k ≤ j ∧ j + 1 < count then items (j + 1) else items j

/-- `erase_from_many`, `container` 799-853. -/
def eraseFromMany (h : Heap α) (sid : Nat) (i : Itr) : Res α :=
  let q := h.pages i.page
  if i.item < q.count - 1 then
    ⟨h.mod i.page (fun y => { y with count := y.count - 1, items := shiftOut q.count i.item y.items }), some i,
      if i.item = 0 then ⟨.replace, i.page, some (q.items 0), some (q.items 1)⟩ else .default, .default⟩
  else
    ⟨h.mod i.page (fun y => { y with count := y.count - 1 }),
      some (if q.next = nil then cend (h.states sid) else ⟨q.next, 0, .none⟩), .default, .default⟩

/-- Appending the items of page `q` to page `p`, `container` 924-932 and 989-1003. -/
def appendItems (h : Heap α) (p q : Nat) : Heap α :=
  h.mod p (fun y => { y with count := y.count + (h.pages q).count, items := fun j =>
    if y.count ≤ j ∧ j < y.count + (h.pages q).count then (h.pages q).items (j - y.count) else y.items j })

/-- `balance_merge_next`, `container` 886-946. -/
def mergeNext (c : Cfg) (held : List Nat) (h : Heap α) (sid : Nat) (i : Itr) (p : Nat) : Res α :=
  let n := (h.pages p).next
  if canLock c.max held n = false then ⟨h, some i, .default, .default⟩
  else if (h.pages p).count + (h.pages n).count ≤ c.cap then
    ⟨erasePage c held (appendItems h p n) sid n,
      some (if i.page = n then ⟨p, (h.pages p).count, .none⟩ else i),
      .default, ⟨.erase, n, some ((h.pages n).items 0), none⟩⟩
  else ⟨h, some i, .default, .default⟩

/-- `balance_merge_prev`, `container` 950-1017.  The page stays locked by the caller's `vmem_page` until
`page.free()`. -/
def mergePrev (c : Cfg) (held : List Nat) (h : Heap α) (sid : Nat) (i : Itr) (p : Nat) : Res α :=
  let n := (h.pages p).prev
  if canLock c.max (p :: held) n = false then ⟨h, some i, .default, .default⟩
  else if (h.pages p).count + (h.pages n).count ≤ c.cap then
    ⟨erasePage c (n :: held) (appendItems h n p) sid p,
      some (if i.page = p then (if i.item ≠ nilItem then ⟨n, i.item + (h.pages n).count, .none⟩ else ⟨n, i.item, i.edge⟩) else i),
      .default, ⟨.erase, p, some ((h.pages p).items 0), none⟩⟩
  else ⟨h, some i, .default, .default⟩

/-- `balance_merge`, `container` 857-882. -/
def balanceMerge (c : Cfg) (held : List Nat) (h : Heap α) (sid : Nat) (i : Itr) (p : Nat) : Res α :=
  let r1 := if (h.pages p).next = nil then ⟨h, some i, .default, .default⟩ else mergeNext c (p :: held) h sid i p
  if (r1.heap.pages p).prev = nil then r1 else mergePrev c held r1.heap sid i p

/-- `should_balance_erase`, `container` 1067-1081. -/
def shouldBalanceErase (c : Cfg) (h : Heap α) (i : Itr) : Bool :=
  if (h.pages i.page).prev = nil ∧ i.item = 0 then c.erBegin
  else if (h.pages i.page).next = nil ∧ i.item = (h.pages i.page).count - 1 then c.erEnd
  else c.erInner

/-- `erase_nostate`, `container` 732-795. -/
def ceraseNostate (c : Cfg) (held : List Nat) (h : Heap α) (sid : Nat) (i : Itr) : Res α :=
  if canLock c.max held i.page = false then .fail h
  else if 1 < (h.pages i.page).count then
    let r := eraseFromMany h sid i
    if shouldBalanceErase c h i && decide (2 * (r.heap.pages i.page).count ≤ c.cap) then
      let m := balanceMerge c held r.heap sid (r.itr.getD i) i.page
      { m with lead0 := r.lead0 }
    else r
  else
    ⟨erasePage c held h sid i.page,
      some (if (h.pages i.page).next = nil then cend (h.states sid) else ⟨(h.pages i.page).next, 0, .none⟩),
      .default, ⟨.erase, i.page, some ((h.pages i.page).items 0), none⟩⟩

/-- `erase2`, `container` 675-702; `none` is the exception. -/
def erase2 (c : Cfg) (held : List Nat) (h : Heap α) (sid : Nat) (i : Itr) : Option (Res α) :=
  if canDeref i = false then none
  else
    let r := ceraseNostate c held h sid i
    match r.itr with
    | some _ => some { r with heap := r.heap.setState sid { r.heap.states sid with total := (r.heap.states sid).total - 1 } }
    | none => some { r with itr := some (cend (r.heap.states sid)), lead0 := .default, lead1 := .default }

end Abc.Vmem.Pages

import Mathlib.Data.List.Nodup

/-!
# Model of the mapping cache of `vmem_pool`: `src/x/vmem_pool.x.h` 99-137, 459-860

* `_mapped_pages` is an array (`Nat → Slot`) of which the first `_mapped_page_count` entries are in use.
* `vmem_page_hit_count_t` is a 32-bit unsigned integer: all counters wrap (`w32`).
* `mmap` is an input: the address it returns in the case it is called (`MAP_FAILED` is an address like
  any other for this code).  The addresses given to `munmap` are an output.
* Log texts are left out; the divisions made for the log in `log_totals` are kept (`fault`).
-/

namespace Abc.Vmem.Pool

/-- 32-bit unsigned wrap. -/
def w32 (n : Nat) : Nat := n % 4294967296

/-- 32-bit unsigned subtraction. -/
def sub32 (a b : Nat) : Nat := (a + 4294967296 - b % 4294967296) % 4294967296

/-- `vmem_mapped_page`, `src/i/vmem_pool.i.h` 54-59; the null pointer is 0. -/
structure Slot where
  pos : Nat
  ptr : Nat
  lock : Nat
  keep : Nat
deriving DecidableEq, Repr

/-- `_mapped_pages[i] = { }`. -/
def Slot.zero : Slot := ⟨0, 0, 0, 0⟩

/-- `vmem_mapped_page_totals`, `src/i/vmem_pool.i.h` 65-72; `unmap_count` is never read. -/
structure Totals where
  keep : Nat
  hit : Nat
  miss : Nat
  unlock : Nat
  check : Nat
deriving DecidableEq, Repr

/-- The part of `vmem_pool` that describes the mapping cache.  `fault` records a division by zero. -/
structure Cache where
  slots : Nat → Slot
  count : Nat
  totals : Totals
  fault : Bool

/-- The initial cache, `src/x/vmem_pool.x.h` 51-56. -/
def Cache.init : Cache := ⟨fun _ => Slot.zero, 0, ⟨0, 0, 0, 0, 0⟩, false⟩

/-- Assignment to an array element. -/
def setSlot (s : Nat → Slot) (i : Nat) (x : Slot) : Nat → Slot := fun j => if j = i then x else s j

/-- The loop of `find_mapped_page`, 554-569, from `i` with `n` entries left. -/
def findFrom (slots : Nat → Slot) (pos : Nat) : Nat → Nat → Nat
  | i, 0 => i
  | i, n + 1 => if (slots i).pos = pos then i else findFrom slots pos (i + 1) n

/-- `find_mapped_page`, 546-579: the index; the page is found if the index is below the count. -/
def find (c : Cache) (pos : Nat) : Nat := findFrom c.slots pos 0 c.count

/-- The update of `check_count` in `find_mapped_page`, 572. -/
def countCheck (c : Cache) (i : Nat) : Cache :=
  { c with totals := { c.totals with check := w32 (c.totals.check + i + 1) } }

/-- `next_empty_i`, 832-841; `n` bounds the number of iterations. -/
def nextEmpty (slots : Nat → Slot) (i : Nat) : Nat → Nat → Nat
  | e, 0 => e
  | e, n + 1 => if e < i ∧ (slots e).ptr ≠ 0 then nextEmpty slots i (e + 1) n else e

/-- State of the loop in `make_mapping_capacity(min_keep_count)`, 630-640; `unmapped` are the addresses
given to `munmap`. -/
structure Sweep where
  slots : Nat → Slot
  keep : Nat
  empty : Nat
  unmapped : List Nat

/-- The reduction of the `keep_count` of a page, 668-675. -/
def reduce (min : Nat) (x : Slot) : Slot :=
  if min < x.keep then { x with keep := sub32 x.keep min } else { x with keep := 0 }

/-- The amount taken off the total in 668-675. -/
def reduction (min : Nat) (x : Slot) : Nat := if min < x.keep then min else x.keep

/-- `should_keep_mapped_page`, 655-657. -/
def shouldKeep (min : Nat) (x : Slot) : Bool := decide (0 < x.lock) || decide (min < x.keep)

/-- `keep_mapped_page`, 661-699. -/
def keepPage (count i min : Nat) (s : Sweep) : Sweep :=
  let x := reduce min (s.slots i)
  let keep := sub32 s.keep (reduction min (s.slots i))
  if s.empty < count then
    let slots := setSlot (setSlot s.slots s.empty x) i Slot.zero
    { s with slots := slots, keep := keep, empty := nextEmpty slots i (s.empty + 1) i }
  else
    { s with slots := setSlot s.slots i x, keep := keep }

/-- `unmap_mapped_page`, 703-733. -/
def unmapPage (i : Nat) (s : Sweep) : Sweep :=
  { s with
    slots := setSlot s.slots i Slot.zero
    unmapped := s.unmapped ++ [(s.slots i).ptr]
    empty := if s.unmapped.length = 0 then i else s.empty }

/-- The loop of `make_mapping_capacity(min_keep_count)`, 633-640, from `i` with `n` entries left. -/
def sweepFrom (count min : Nat) : Nat → Nat → Sweep → Sweep
  | _, 0, s => s
  | i, n + 1, s =>
    sweepFrom count min (i + 1) n (if shouldKeep min (s.slots i) then keepPage count i min s else unmapPage i s)

/-- `make_mapping_capacity(min_keep_count)`, 624-651. -/
def makeRoom (max min : Nat) (c : Cache) : Cache × List Nat :=
  let s := sweepFrom c.count min 0 c.count ⟨c.slots, c.totals.keep, max, []⟩
  ({ c with slots := s.slots, count := c.count - s.unmapped.length, totals := { c.totals with keep := s.keep } },
    s.unmapped)

/-- `make_mapping_capacity()`, 589-620.  It is called with a full cache, so that the divisor is the
number of slots. -/
def makeCapacity (max : Nat) (c : Cache) : Cache × List Nat :=
  let r := makeRoom max (c.totals.keep / c.count) c
  if 0 < r.2.length then r
  else
    let q := makeRoom max (w32 (r.1.totals.keep + 1)) r.1
    (q.1, r.2 ++ q.2)

/-- `lock_mapped_page`, 737-754. -/
def lockMapped (c : Cache) (i : Nat) : Cache :=
  { c with
    slots := setSlot c.slots i { c.slots i with lock := w32 ((c.slots i).lock + 1), keep := w32 ((c.slots i).keep + 1) }
    totals := { c.totals with keep := w32 (c.totals.keep + 1), hit := w32 (c.totals.hit + 1) } }

/-- `map_new_page`, 780-803, for the address `addr` returned by `mmap`. -/
def mapNew (c : Cache) (i pos addr : Nat) : Cache :=
  { c with
    slots := setSlot c.slots i ⟨pos, addr, 1, 1⟩
    count := c.count + 1
    totals := { c.totals with keep := w32 (c.totals.keep + 1), miss := w32 (c.totals.miss + 1) } }

/-- The loop of `optimize_mapped_page`, 807-829, from `j` with `n` entries left before `i`. -/
def optimizeFrom (slots : Nat → Slot) (i : Nat) : Nat → Nat → (Nat → Slot)
  | _, 0 => slots
  | j, n + 1 =>
    if (slots j).keep < (slots i).keep then setSlot (setSlot slots j (slots i)) i (slots j)
    else optimizeFrom slots i (j + 1) n

/-- `optimize_mapped_page`, 807-829. -/
def optimize (c : Cache) (i : Nat) : Cache := { c with slots := optimizeFrom c.slots i 0 i }

/-- `log_totals`, 845-860: the divisions are made only if there is a log. -/
def logTotals (log : Bool) (c : Cache) : Cache :=
  if log && (decide (w32 (c.totals.hit + c.totals.miss) = 0)
      || decide (w32 (w32 (c.totals.hit + c.totals.miss) + c.totals.unlock) = 0)) then { c with fault := true }
  else c

/-- The part of `lock_page` after a slot has been chosen, 492-512. -/
def lockAt (log : Bool) (c : Cache) (i pos addr : Nat) : Cache × Nat :=
  if i < c.count then (logTotals log (optimize (lockMapped c i) i), (c.slots i).ptr)
  else (logTotals log (optimize (mapNew c i pos addr) i), addr)

/-- Result of `lock_page`: the cache, the pointer returned (0 is null), the addresses unmapped on the
way and whether `mmap` was called. -/
structure Locked where
  cache : Cache
  ptr : Nat
  unmapped : List Nat
  mapped : Bool

/-- `lock_page`, 460-513. -/
def lockPage (max : Nat) (log : Bool) (c0 : Cache) (pos addr : Nat) : Locked :=
  let i := find c0 pos
  let c := countCheck c0 i
  if i < c.count then
    let r := lockAt log c i pos addr
    ⟨r.1, r.2, [], false⟩
  else
    let m := if c.count < max then (c, []) else makeCapacity max c
    if m.1.count < max then
      let r := lockAt log m.1 m.1.count pos addr
      ⟨r.1, r.2, m.2, true⟩
    else ⟨m.1, 0, m.2, false⟩

/-- `unlock_mapped_page`, 758-776; `msync` has no effect on the cache. -/
def unlockMapped (c : Cache) (i : Nat) : Cache :=
  { c with slots := setSlot c.slots i { c.slots i with lock := sub32 (c.slots i).lock 1 } }

/-- `unlock_page`, 517-543. -/
def unlockPage (log : Bool) (c0 : Cache) (pos : Nat) : Cache × Bool :=
  let c1 : Cache := { c0 with totals := { c0.totals with unlock := w32 (c0.totals.unlock + 1) } }
  let i := find c1 pos
  let c := countCheck c1 i
  if i < c.count then (logTotals log (unlockMapped c i), true)
  else (c, false)

/-! ## The process around the cache -/

/-- The process: the cache, the memory mappings made by the operating system (`maps a` is the page of
the file that is visible at address `a`), the pages of the file, and the pointers that clients hold
(each from one successful `lock_page`, i.e. one `vmem_page`, `src/x/vmem_pool.x.h` 899-1059). -/
structure World (α : Type) where
  cache : Cache
  maps : Nat → Option Nat
  file : Nat → α
  held : List (Nat × Nat)
  crashed : Bool

def World.init {α : Type} (file : Nat → α) : World α := ⟨Cache.init, fun _ => none, file, [], false⟩

/-- What clients do.  `lock pos addr`: construct a `vmem_page` for `pos`, where `mmap` would return
`addr`.  The others use the `k`-th pointer held. -/
inductive Act (α : Type) where
  | lock (pos addr : Nat)
  | unlock (k : Nat)
  | write (k : Nat) (v : α)

/-- `munmap` of the given addresses. -/
def unmapAll (maps : Nat → Option Nat) (as : List Nat) : Nat → Option Nat := fun a => if a ∈ as then none else maps a

/-- `MAP_FAILED`. -/
def mapFailed : Nat := 18446744073709551615

/-- `mmap`: the page is visible at the address from now on, unless the call failed. -/
def mapAt (maps : Nat → Option Nat) (addr pos : Nat) : Nat → Option Nat :=
  if addr = mapFailed then maps else fun a => if a = addr then some pos else maps a

/-- One action of a client. -/
def step {α : Type} (max : Nat) (log : Bool) (w : World α) : Act α → World α
  | .lock pos addr =>
    let r := lockPage max log w.cache pos addr
    let maps := unmapAll w.maps r.unmapped
    { w with
      cache := r.cache
      maps := if r.mapped then mapAt maps addr pos else maps
      held := if r.ptr = 0 then w.held else w.held ++ [(pos, r.ptr)] }
  | .unlock k =>
    match w.held[k]? with
    | none => w
    | some h => { w with cache := (unlockPage log w.cache h.1).1, held := w.held.eraseIdx k }
  | .write k v =>
    match w.held[k]? with
    | none => w
    | some h =>
      match w.maps h.2 with
      | none => { w with crashed := true }   -- an access to unmapped memory
      | some q => { w with file := fun p => if p = q then v else w.file p }

/-- A history of actions. -/
def run {α : Type} (max : Nat) (log : Bool) (w : World α) (as : List (Act α)) : World α := as.foldl (step max log) w

/-- What a client sees through the `k`-th pointer it holds; `none` is an access to unmapped memory. -/
def look {α : Type} (w : World α) (k : Nat) : Option α :=
  match w.held[k]? with
  | none => none
  | some h => (w.maps h.2).map w.file

end Abc.Vmem.Pool

/-
Model of opening a pool file (/repo/src/x/vmem_pool.x.h lines 50-303) and its properties:
C46, C61.

A file is the list of its bytes; `room` is the number of bytes the file system still accepts, so
that a full disk is covered.  Simplifications: `open` finds or creates the file, `mmap` succeeds
(C21 covers its failure), the machine is little-endian, `sizeof(vmem_root_page)` is 33
(`#pragma pack(push, 1)`); log calls are dropped; `MaxMappedPages` passes the test of 135-139.
-/
import Mathlib.Tactic.Basic
import Mathlib.Tactic.ByContra

namespace Abc.Vmem.Open

abbrev Byte := UInt8

/-- `vmem_page_size` (vmem_pool.i.h 43). -/
def pageSize : Nat := 4096

/-- The initial value of `vmem_root_page` (vmem_layout.i.h 186-193), byte by byte: `version`,
`signature`, `page_size`, `unused1`, `free_pages` (two positions, both nil), `unused2`. -/
def rootInit : List Byte :=
  [0x02, 0x00] ++
  [0x61, 0x62, 0x63, 0x3a, 0x3a, 0x76, 0x6d, 0x65, 0x6d, 0x00] ++
  [0x00, 0x10] ++
  [0xcc, 0xcc] ++
  List.replicate 16 0xff ++
  [0xcc]

/-- A block of zero bytes. -/
def zeros (n : Nat) : List Byte := List.replicate n 0

inductive Err where
  | size | capacity | version | signature | pageSize
deriving DecidableEq, Repr

/-- A `uint16_t` at an offset of a mapped page. -/
def u16At (l : List Byte) (off : Nat) : Nat :=
  (l.getD off 0).toNat + 256 * (l.getD (off + 1) 0).toNat

/-- `std::strcmp(a, b) == 0`: compares up to the first difference or the common NUL.  `none` is a
read past the end of `a` or `b`. -/
def strcmpEq : List Byte → List Byte → Option Bool
  | a :: as, b :: bs => if a ≠ b then some false else if a = 0 then some true else strcmpEq as bs
  | _, _ => none

/-- `create_page` (vmem_pool.x.h 424-453): the position of the page, if all of it was written. -/
def createPage (file : List Byte) (room : Nat) : List Byte × Nat × Option Nat :=
  let n := min room pageSize
  (file ++ zeros n, room - n,
    if n ≠ pageSize then none else some (file.length / pageSize))

/-- `memset` of a whole page and `memmove` of `bytes` to its beginning (209-212, 232). -/
def fillPage (file : List Byte) (pos : Nat) (bytes : List Byte) : List Byte :=
  file.take (pos * pageSize) ++ (bytes ++ zeros (pageSize - bytes.length)) ++
    file.drop ((pos + 1) * pageSize)

/-- `create_root_page_or_throw` (198-217) and `create_start_page_or_throw` (221-237). -/
def createFilled (file : List Byte) (room : Nat) (bytes : List Byte) :
    List Byte × Nat × Except Err Unit :=
  match createPage file room with
  | (file, room, none) => (file, room, .error .capacity)
  | (file, room, some pos) => (fillPage file pos bytes, room, .ok ())

/-- `verify_root_page_or_throw` (248-283).  `none`: `strcmp` ran past the page. -/
def verifyRoot (file : List Byte) : Option (Except Err Unit) :=
  if u16At file 0 ≠ u16At rootInit 0 then some (.error .version)
  else (strcmpEq ((file.take pageSize).drop 2) (rootInit.drop 2)).map fun eq =>
    if !eq then .error .signature
    else if u16At file 12 ≠ pageSize then .error .pageSize
    else .ok ()

/-- `verify_start_page_or_throw` (287-303): only asks for the address of page 1, and mapping a
page beyond the end of the file succeeds. -/
def verifyStart (_file : List Byte) : Except Err Unit := .ok ()

/-- The constructor (51-77) with `open_pool_or_throw` (152-184), `init_pool_or_throw` (188-194)
and `verify_pool_or_throw` (241-244): the file afterwards and the outcome. -/
def openPool (file : List Byte) (room : Nat) : Option (List Byte × Nat × Except Err Unit) :=
  if file.length % pageSize ≠ 0 then some (file, room, .error .size)
  else
    let init : List Byte × Nat × Except Err Unit :=
      if file.length > 0 then (file, room, .ok ())
      else match createFilled file room rootInit with
        | (file, room, .error e) => (file, room, .error e)
        | (file, room, .ok _) => createFilled file room []
    match init with
    | (file, room, .error e) => some (file, room, .error e)
    | (file, room, .ok _) => (verifyRoot file).map fun r => match r with
      | .error e => (file, room, .error e)
      | .ok _ => (file, room, verifyStart file)

/-! ## The claims -/

/-- The root page says: version 2, "abc::vmem", pages of 4096 bytes. -/
structure GoodRoot (file : List Byte) : Prop where
  version : file[0]? = some 0x02 ∧ file[1]? = some 0x00
  signature : (file.drop 2).take 10 = "abc::vmem".toUTF8.toList ++ [0]
  pageSize : file[12]? = some 0x00 ∧ file[13]? = some 0x10

theorem strcmpEq_spec (s : List Byte) (hs : (0 : Byte) ∉ s) (l r : List Byte)
    (h : s.length < l.length) :
    strcmpEq l (s ++ 0 :: r) = some (decide (l.take (s.length + 1) = s ++ [0])) := by
  induction s generalizing l with
  | nil =>
    match l, h with
    | a :: l, _ =>
      by_cases ha : a = 0
      · simp [strcmpEq, ha]
      · simp [strcmpEq, ha]
  | cons b s ih =>
    match l, h with
    | a :: l, h =>
      by_cases ha : a = b
      · subst ha
        have ha : a ≠ 0 := fun c => hs (by simp [c])
        have := ih (fun c => hs (by simp [c])) l (by simpa using h)
        simp only [List.cons_append, strcmpEq, ne_eq, not_true_eq_false, if_false, ha, this]
        simp
      · simp [strcmpEq, ha]

def sig : List Byte := [0x61, 0x62, 0x63, 0x3a, 0x3a, 0x76, 0x6d, 0x65, 0x6d]

theorem verifyRoot_spec (file : List Byte) (h : pageSize ≤ file.length) :
    ∃ r, verifyRoot file = some r ∧ (r = .ok () ↔ GoodRoot file) := by
  have hget : ∀ i, i < 14 → ∃ b, file[i]? = some b := fun i hi =>
    ⟨_, List.getElem?_eq_getElem (by unfold pageSize at h; omega)⟩
  have hcmp : strcmpEq ((file.take pageSize).drop 2) (rootInit.drop 2) =
      some (decide ((file.drop 2).take 10 = sig ++ [0])) := by
    have h1 := strcmpEq_spec sig (by decide) ((file.take pageSize).drop 2) (rootInit.drop 12)
      (by simp [sig, pageSize] at *; omega)
    have h2 : ((file.take pageSize).drop 2).take (sig.length + 1) = (file.drop 2).take 10 := by
      rw [List.drop_take, List.take_take]; rfl
    rw [h2] at h1
    exact h1
  have hsig : "abc::vmem".toUTF8.toList ++ [0] = sig ++ [0] := by decide +kernel
  obtain ⟨b0, h0⟩ := hget 0 (by omega)
  obtain ⟨b1, h1⟩ := hget 1 (by omega)
  obtain ⟨b12, h12⟩ := hget 12 (by omega)
  obtain ⟨b13, h13⟩ := hget 13 (by omega)
  have e0 : u16At file 0 = b0.toNat + 256 * b1.toNat := by
    unfold u16At; simp [List.getD_eq_getElem?_getD, h0, h1]
  have e12 : u16At file 12 = b12.toNat + 256 * b13.toNat := by
    unfold u16At; simp [List.getD_eq_getElem?_getD, h12, h13]
  have er : u16At rootInit 0 = 2 := by decide
  have hb0 := b0.toNat_lt
  have hb1 := b1.toNat_lt
  have hb12 := b12.toNat_lt
  have hb13 := b13.toNat_lt
  unfold verifyRoot
  rw [hcmp, e0, e12, er]
  by_cases hv : b0.toNat + 256 * b1.toNat = 2
  · have v0 : b0 = 0x02 := UInt8.toNat_inj.1 (by show b0.toNat = 2; omega)
    have v1 : b1 = 0x00 := UInt8.toNat_inj.1 (by show b1.toNat = 0; omega)
    rw [if_neg (by simpa using hv)]
    refine ⟨_, rfl, ?_⟩
    by_cases hs : (file.drop 2).take 10 = sig ++ [0]
    · simp only [hs, decide_true, Bool.not_true, Bool.false_eq_true, if_false]
      by_cases hp : b12.toNat + 256 * b13.toNat = pageSize
      · have p0 : b12 = 0x00 := UInt8.toNat_inj.1 (by
          show b12.toNat = 0; unfold pageSize at hp; omega)
        have p1 : b13 = 0x10 := UInt8.toNat_inj.1 (by
          show b13.toNat = 16; unfold pageSize at hp; omega)
        rw [if_neg (by simpa using hp)]
        subst v0 v1 p0 p1
        exact ⟨fun _ => ⟨⟨h0, h1⟩, (by rw [hsig]; exact hs), ⟨h12, h13⟩⟩, fun _ => rfl⟩
      · rw [if_pos hp]
        refine ⟨fun c => (by cases c), fun c => ?_⟩
        obtain ⟨c1, c2⟩ := c.pageSize
        rw [h12] at c1; rw [h13] at c2
        cases c1; cases c2
        exact absurd (by decide) hp
    · simp only [hs, decide_false, Bool.not_false, if_true]
      refine ⟨fun c => (by cases c), fun c => ?_⟩
      have := c.signature
      rw [hsig] at this
      exact absurd this hs
  · rw [if_pos hv]
    refine ⟨_, rfl, fun c => (by cases c), fun c => ?_⟩
    obtain ⟨c1, c2⟩ := c.version
    rw [h0] at c1; rw [h1] at c2
    cases c1; cases c2
    exact absurd (by decide) hv

/-- C46, existing files: a file that is not empty is opened exactly when it consists of whole pages
and its root page carries the version, the signature and the page size; opening does not change
it.  No read goes past the root page. -/
theorem C46_existing (file : List Byte) (room : Nat) (hf : file ≠ []) :
    ∃ r, openPool file room = some (file, room, r) ∧
      (r = .ok () ↔ file.length % 4096 = 0 ∧ GoodRoot file) := by
  have hpos : 0 < file.length := List.length_pos_iff.2 hf
  unfold openPool
  by_cases hm : file.length % pageSize ≠ 0
  · rw [if_pos hm]
    exact ⟨_, rfl, fun c => (by cases c), fun c => absurd c.1 hm⟩
  · rw [if_neg hm]
    have hlen : pageSize ≤ file.length := by
      simp only [ne_eq, not_not] at hm
      exact Nat.le_of_dvd hpos (Nat.dvd_of_mod_eq_zero hm)
    obtain ⟨r, h1, h2⟩ := verifyRoot_spec file hlen
    simp only [gt_iff_lt, hpos, if_true, h1]
    have hm' : file.length % 4096 = 0 := Decidable.not_not.1 hm
    rcases r with e | _
    · exact ⟨_, rfl, fun c => (by cases c), fun c => by simpa using h2.2 c.2⟩
    · exact ⟨_, rfl, fun _ => ⟨hm', h2.1 rfl⟩, fun _ => rfl⟩

theorem zeros_length (n : Nat) : (zeros n).length = n := List.length_replicate ..

theorem rootInit_length : rootInit.length = 33 := rfl

theorem root_length : (rootInit ++ zeros (4096 - 33)).length = 4096 := by
  rw [List.length_append, zeros_length, rootInit_length]

/-- A file of one page that another program left behind is refused. -/
example : ∃ r, openPool (0x03 :: zeros 4095) 7 = some (0x03 :: zeros 4095, 7, r) ∧ r ≠ .ok () := by
  obtain ⟨r, h1, h2⟩ := C46_existing (0x03 :: zeros 4095) 7 (by simp)
  refine ⟨r, h1, fun c => ?_⟩
  have := (h2.1 c).2.version.1
  simp at this

/-- The file `init_pool_or_throw` leaves behind. -/
def freshFile : List Byte :=
  rootInit ++ zeros (4096 - 33) ++ zeros 4096

theorem fill_root : fillPage (zeros pageSize) 0 rootInit = rootInit ++ zeros (4096 - 33) := by
  unfold fillPage
  rw [Nat.zero_mul, List.take_zero, List.nil_append, rootInit_length,
    List.drop_of_length_le (by rw [zeros_length]; omega), List.append_nil]
  rfl

theorem fill_start : fillPage (rootInit ++ zeros (4096 - 33) ++ zeros pageSize) 1 [] = freshFile := by
  unfold fillPage freshFile
  have h := root_length
  rw [List.take_append_of_le_length (by rw [h]; decide), List.take_of_length_le (by rw [h]; decide)]
  rw [List.drop_of_length_le (by rw [List.length_append, h, zeros_length]; decide)]
  rw [List.append_nil, List.nil_append, List.length_nil]
  rfl

theorem freshFile_length : freshFile.length = 8192 := by
  unfold freshFile
  rw [List.length_append, root_length, zeros_length]

theorem fresh_good (l : List Byte) : GoodRoot (rootInit ++ l) where
  version := by constructor <;> rfl
  signature := by
    have h : (rootInit ++ l).drop 2 = sig ++ [0] ++ (rootInit.drop 12 ++ l) := rfl
    rw [h, List.take_append_of_le_length (by decide), List.take_of_length_le (by decide)]
    decide +kernel
  pageSize := by constructor <;> rfl

theorem fresh_reopen (room : Nat) : openPool freshFile room = some (freshFile, room, .ok ()) := by
  obtain ⟨r, h1, h2⟩ := C46_existing freshFile room (by
    intro c; have := freshFile_length; rw [c, List.length_nil] at this; omega)
  have : r = .ok () := h2.2 ⟨by rw [freshFile_length], by
    unfold freshFile; rw [List.append_assoc]; exact fresh_good _⟩
  rw [h1, this]

theorem create_root (room : Nat) : createFilled [] (pageSize + room) rootInit =
    (rootInit ++ zeros (4096 - 33), room, .ok ()) := by
  unfold createFilled createPage
  have e : min (pageSize + room) pageSize = pageSize := by omega
  have e2 : pageSize + room - pageSize = room := by omega
  simp only [e, e2, ne_eq, not_true_eq_false, if_false, List.nil_append, List.length_nil,
    Nat.zero_div, fill_root]

theorem create_start (room : Nat) : createFilled (rootInit ++ zeros (4096 - 33)) (pageSize + room) [] =
    (freshFile, room, .ok ()) := by
  unfold createFilled createPage
  have e : min (pageSize + room) pageSize = pageSize := by omega
  have e2 : pageSize + room - pageSize = room := by omega
  have e3 : (4096 : Nat) / pageSize = 1 := by decide
  simp only [e, e2, ne_eq, not_true_eq_false, if_false, root_length, e3, fill_start]

/-- C46, new files: with room for two pages an empty file becomes a pool of two pages, the root page
first, and opening it again succeeds and changes nothing. -/
theorem C46_fresh (room : Nat) :
    openPool [] (pageSize + (pageSize + room)) = some (freshFile, room, .ok ()) ∧
    ∀ room', openPool freshFile room' = some (freshFile, room', .ok ()) := by
  refine ⟨?_, fresh_reopen⟩
  have h3 := fresh_reopen room
  unfold openPool at h3 ⊢
  have e : ¬ (freshFile.length % pageSize ≠ 0) := by rw [freshFile_length]; decide
  have e1 : freshFile.length > 0 := by rw [freshFile_length]; decide
  have e2 : ¬ (([] : List Byte).length % pageSize ≠ 0) := by decide
  have e3 : ¬ (([] : List Byte).length > 0) := by decide
  rw [if_neg e] at h3
  rw [if_neg e2]
  simp only [e1, if_true] at h3
  simp only [e3, if_false, create_root, create_start]
  exact h3

/-- A pool that opens has its start page. -/
def C61Full : Prop :=
  ∀ file room file' room', openPool file room = some (file', room', .ok ()) →
    8192 ≤ file'.length

/-- C61, new files: holds. -/
theorem C61_fresh_partial (room room' : Nat) (file' : List Byte)
    (h : openPool [] room = some (file', room', .ok ())) : file' = freshFile := by
  by_cases h1 : pageSize ≤ room
  · obtain ⟨r, rfl⟩ := Nat.exists_eq_add_of_le h1
    by_cases h2 : pageSize ≤ r
    · obtain ⟨r, rfl⟩ := Nat.exists_eq_add_of_le h2
      rw [(C46_fresh r).1] at h
      simp only [Option.some.injEq, Prod.mk.injEq] at h
      exact h.1.symm
    · exfalso
      unfold openPool at h
      have e2 : ¬ (([] : List Byte).length % pageSize ≠ 0) := by decide
      have e3 : ¬ (([] : List Byte).length > 0) := by decide
      have e : min r pageSize ≠ pageSize := by omega
      rw [if_neg e2] at h
      simp only [e3, if_false, create_root] at h
      simp [createFilled, createPage, e] at h
  · exfalso
    unfold openPool at h
    have e2 : ¬ (([] : List Byte).length % pageSize ≠ 0) := by decide
    have e3 : ¬ (([] : List Byte).length > 0) := by decide
    have e : min room pageSize ≠ pageSize := by omega
    rw [if_neg e2] at h
    simp only [e3, if_false] at h
    simp [createFilled, createPage, e] at h

/-- On a disk with room for one page the first attempt throws and leaves the root page behind; the
second attempt succeeds, although the file has no start page. -/
theorem C61_violated : (∃ file', openPool [] 4096 = some (file', 0, .error .capacity) ∧
    file'.length = 4096 ∧ openPool file' 0 = some (file', 0, .ok ())) ∧ ¬ C61Full := by
  have h1 : createFilled [] 4096 rootInit = (rootInit ++ zeros (4096 - 33), 0, .ok ()) :=
    create_root 0
  have hl := root_length
  have h2 : openPool (rootInit ++ zeros (4096 - 33)) 0 =
      some (rootInit ++ zeros (4096 - 33), 0, .ok ()) := by
    obtain ⟨r, h3, h4⟩ := C46_existing (rootInit ++ zeros (4096 - 33)) 0 (by
      intro c; rw [c, List.length_nil] at hl; omega)
    rw [h3, h4.2 ⟨by rw [hl], fresh_good _⟩]
  refine ⟨⟨_, ?_, hl, h2⟩, fun h => ?_⟩
  · unfold openPool
    simp only [List.length_nil, Nat.zero_mod, ne_eq, not_true_eq_false, if_false, gt_iff_lt,
      Nat.lt_irrefl, h1]
    simp [createFilled, createPage, pageSize]
    rfl
  · have := h _ _ _ _ h2
    omega

end Abc.Vmem.Open

import Verif.Vmem.MapModel
import Mathlib.Order.Nat
import Mathlib.Algebra.Order.Ring.Int

/-! # Where maps do not behave as expected (C29, C30) -/

namespace Abc.Vmem.Map

open Abc.Vmem.Pages

/-- The whole claim of C29: insertions and lookups in a file with room, for any keys. -/
def C29Full : Prop := ∀ (K : Type) (_ : LinearOrder K) (m : MCfg K Nat), m.Ok → ∀ os : List (MOp K Nat), (∀ o ∈ os, o.keeps = true) →
  (MSt.run m .init os).1.heap.len < m.limit → Behaves m os

/-- The whole claim of C30: as C29, with erasures. -/
def C30Full : Prop := ∀ (K : Type) (_ : LinearOrder K) (m : MCfg K Nat), m.Ok → ∀ os : List (MOp K Nat),
  (MSt.run m .init os).1.heap.len < m.limit → Behaves m os

/-- A configuration with small pages. -/
def smallCfg {K : Type} (z : K) (cap : Nat) (spare : Bool) : MCfg K Nat := ⟨8, 1000, true, cap, cap, 9, 9, spare, z, fun _ => z⟩

theorem smallCfg_ok {K : Type} (z : K) (spare : Bool) : (smallCfg z 4 spare).Ok := by
  constructor <;> simp [smallCfg, nilItem, nil]

/-- Keys inserted in decreasing order. -/
def downOps : List (MOp Nat Nat) := [50, 40, 30, 20, 10, 5, 3, 2, 1].map (fun k => .insert k k) ++ [.find 1]

/-- After keys were inserted in decreasing order, the smallest one is not found. -/
theorem C29_violated_decreasing : ¬ C29Full := by
  intro h
  have := (h Nat inferInstance (smallCfg 0 4 true) (smallCfg_ok 0 true) downOps (by decide) (by decide +kernel)).2.1
  exact absurd this (by decide +kernel)

/-- With the key -5 alone in the map, 0 is found: its bytes are those of a new page. -/
theorem C29_violated_zero : ¬ C29Full := by
  intro h
  have := (h Int inferInstance (smallCfg 0 4 true) (smallCfg_ok 0 true) [.insert (-5) 1, .find 0] (by decide) (by decide +kernel)).2.1
  exact absurd this (by decide +kernel)

/-- Looking for a key that is larger than all keys on a full page reads past the page, unless the page is
larger than its items. -/
theorem C29_violated_full_page : ¬ C29Full := by
  intro h
  have := (h Nat inferInstance (smallCfg 0 4 false) (smallCfg_ok 0 false) [.insert 1 1, .insert 2 2, .insert 3 3, .insert 4 4, .find 5] (by decide) (by decide +kernel)).1
  exact absurd this (by decide +kernel)

/-- The largest key on a page is still found after it was erased, and cannot be inserted again. -/
theorem C30_violated_last : ¬ C30Full := by
  intro h
  have := (h Nat inferInstance (smallCfg 0 4 true) (smallCfg_ok 0 true) [.insert 5 1, .insert 7 2, .erase 7, .find 7, .insert 7 3] (by decide +kernel)).2.1
  exact absurd this (by decide +kernel)

/-- Erasing that key again erases another key, and returns 1. -/
theorem C30_violated_twice : let r := MSt.run (smallCfg 0 4 true) .init [.insert 5 1, .insert 7 2, .erase 7, .erase 7]
    r.2.drop 2 = [.erased 1, .erased 1] ∧ r.1.walk (smallCfg 0 4 true) 9 = [] := by decide +kernel

/-- Erasing the first key of a page that is not merged takes other keys from the map: 4 is not found any more,
although iterating still shows it.  With ten keys it is the first page that is lost; the key page then leads to the
page of 3 with its new first key. -/
theorem C30_violated_first : (let r := MSt.run (smallCfg 0 4 true) .init ([0, 1, 2, 3, 4, 5].map (fun k => .insert k k) ++ [.erase 2, .find 4])
    r.2.drop 6 = [.erased 1, .found none] ∧ r.1.walk (smallCfg 0 4 true) 9 = [0, 1, 3, 4, 5].map (fun k => some (.val k k))) ∧
    let r := MSt.run (smallCfg 0 4 true) .init ((List.range 10).map (fun k => .insert k k) ++ [.erase 2, .find 0, .find 1, .find 3, .find 4])
    r.2.drop 10 = [.erased 1, .found none, .found none, .found (some (.val 3 3)), .found (some (.val 4 4))] ∧
    r.1.walk (smallCfg 0 4 true) 20 = [0, 1, 3, 4, 5, 6, 7, 8, 9].map (fun k => some (.val k k)) := by decide +kernel

end Abc.Vmem.Map

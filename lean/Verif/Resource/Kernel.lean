import Mathlib.Data.List.Perm.Basic
import Mathlib.Data.List.Perm.Lattice
import Mathlib.Data.List.Nodup

/-!
# Descriptors

The part of the operating system the socket, GPIO and pool classes rely on for their descriptors:
`::socket`, `::accept`, `::open`, `ioctl(... get_line ...)` hand out a number that is not in use,
`::close` takes a number back, and every other call goes by the number alone.

The code only ever holds the number.  A `Desc` carries, beside the number, which opening it came from
(`serial`); nothing in the model decides anything by it.  It makes it possible to say that a number
has been closed and handed out again to somebody else.
-/

namespace Abc.Resource

structure Desc where
  num : Nat
  serial : Nat
deriving DecidableEq, Repr

structure Kernel where
  /-- open descriptors -/
  table : List Desc
  /-- number of openings so far -/
  serial : Nat
  /-- all openings so far, latest first -/
  opened : List Desc
  /-- all descriptors closed so far, latest first -/
  closed : List Desc
  /-- calls made with a number whose opening is over: the number is free, or belongs to another -/
  wrong : List Desc
deriving DecidableEq, Repr

namespace Kernel

def init : Kernel := ⟨[], 0, [], [], []⟩

/-- `::socket`, `::accept`, `::open`: the answer `none` is a failure, `some n` the number handed out.
POSIX promises a number that is not in use; an answer that breaks the promise counts as a failure. -/
def fresh (k : Kernel) (answer : Option Nat) : Kernel × Option Desc :=
  match answer with
  | none => (k, none)
  | some n =>
    if k.table.any (fun d => d.num == n) then (k, none)
    else
      let d : Desc := ⟨n, k.serial⟩
      ({ k with table := d :: k.table, serial := k.serial + 1, opened := d :: k.opened }, some d)

/-- Any call on a descriptor (`::bind`, `::connect`, `::listen`, `::accept`, `::shutdown`, `::send`,
`::recv`, `ioctl`). -/
def use (k : Kernel) (d : Desc) : Kernel :=
  if d ∈ k.table then k else { k with wrong := d :: k.wrong }

/-- `::close`: whatever has that number is closed. -/
def close (k : Kernel) (d : Desc) : Kernel :=
  let k := k.use d
  { k with table := k.table.filter (fun e => e.num ≠ d.num)
           closed := k.table.filter (fun e => e.num = d.num) ++ k.closed }

end Kernel

/-- The invariant of a program that holds exactly the descriptors `held`. -/
structure KInv (k : Kernel) (held : List Desc) : Prop where
  perm : held.Perm k.table
  nums : (k.table.map Desc.num).Nodup
  old : ∀ d ∈ k.opened, d.serial < k.serial
  nodup : k.opened.Nodup
  split : k.opened.Perm (k.table ++ k.closed)
  wrong : k.wrong = []

namespace KInv

theorem init : KInv Kernel.init [] :=
  ⟨List.Perm.refl _, by simp [Kernel.init], by simp [Kernel.init], by simp [Kernel.init],
    by simp [Kernel.init], rfl⟩

theorem congr {k : Kernel} {h h' : List Desc} (H : KInv k h) (p : h.Perm h') : KInv k h' :=
  ⟨p.symm.trans H.perm, H.nums, H.old, H.nodup, H.split, H.wrong⟩

theorem use {k : Kernel} {h : List Desc} (H : KInv k h) {d : Desc} (hd : d ∈ h) : k.use d = k := by
  have : d ∈ k.table := H.perm.mem_iff.mp hd
  simp [Kernel.use, this]

theorem fresh_none {k : Kernel} {h : List Desc} (H : KInv k h) {a : Option Nat}
    (hf : (k.fresh a).2 = none) : KInv (k.fresh a).1 h := by
  unfold Kernel.fresh at *
  cases a with
  | none => exact H
  | some n =>
    dsimp only at *
    by_cases hc : (k.table.any fun d => d.num == n) = true
    · simp only [hc, if_true]; exact H
    · simp only [hc] at hf; cases hf

theorem fresh_some {k : Kernel} {h : List Desc} (H : KInv k h) {a : Option Nat} {d : Desc}
    (hf : (k.fresh a).2 = some d) : KInv (k.fresh a).1 (d :: h) := by
  unfold Kernel.fresh at *
  cases a with
  | none => cases hf
  | some n =>
    dsimp only at *
    by_cases hc : (k.table.any fun d => d.num == n) = true
    · simp only [hc, if_true] at hf; cases hf
    · simp only [hc] at hf ⊢
      cases hf
      have hn : ∀ e ∈ k.table, e.num ≠ n := by
        intro e he hen
        exact hc (List.any_eq_true.mpr ⟨e, he, by simp [hen]⟩)
      refine ⟨?_, ?_, ?_, ?_, ?_, H.wrong⟩
      · exact List.Perm.cons _ H.perm
      · show (n :: k.table.map Desc.num).Nodup
        refine List.nodup_cons.mpr ⟨?_, H.nums⟩
        intro hm
        obtain ⟨e, he, hen⟩ := List.mem_map.mp hm
        exact hn e he hen
      · intro e he
        show e.serial < k.serial + 1
        rcases List.mem_cons.mp he with rfl | he
        · exact Nat.lt_succ_self _
        · exact Nat.lt_succ_of_lt (H.old e he)
      · refine List.nodup_cons.mpr ⟨?_, H.nodup⟩
        intro hm
        exact Nat.lt_irrefl _ (H.old _ hm)
      · exact List.Perm.cons _ H.split

theorem filter_num {l : List Desc} (hn : (l.map Desc.num).Nodup) {d : Desc} (hd : d ∈ l) :
    l.filter (fun e => e.num = d.num) = [d] ∧
      l.Perm (d :: l.filter (fun e => e.num ≠ d.num)) := by
  induction l with
  | nil => cases hd
  | cons a t ih =>
    have hn' : a.num ∉ t.map Desc.num ∧ (t.map Desc.num).Nodup := List.nodup_cons.mp hn
    rcases List.mem_cons.mp hd with rfl | hd'
    · have h1 : t.filter (fun e => e.num = d.num) = [] := by
        refine List.filter_eq_nil_iff.mpr ?_
        intro e he hc
        have : e.num = d.num := by simpa using hc
        exact hn'.1 (List.mem_map.mpr ⟨e, he, this⟩)
      have h2 : t.filter (fun e => e.num ≠ d.num) = t := by
        refine List.filter_eq_self.mpr ?_
        intro e he
        have : e.num ≠ d.num := fun hc => hn'.1 (List.mem_map.mpr ⟨e, he, hc⟩)
        simp [this]
      constructor
      · rw [List.filter_cons_of_pos (by simp), h1]
      · rw [List.filter_cons_of_neg (by simp), h2]
    · have hne : a.num ≠ d.num := fun hc => hn'.1 (List.mem_map.mpr ⟨d, hd', hc.symm⟩)
      obtain ⟨i1, i2⟩ := ih hn'.2 hd'
      constructor
      · rw [List.filter_cons_of_neg (by simpa using hne)]; exact i1
      · rw [List.filter_cons_of_pos (by simpa using hne)]
        exact (List.Perm.cons a i2).trans (List.Perm.swap _ _ _)

theorem close {k : Kernel} {h : List Desc} {d : Desc} (H : KInv k (d :: h)) :
    KInv (k.close d) h := by
  have hd : d ∈ k.table := H.perm.mem_iff.mp (List.mem_cons_self ..)
  obtain ⟨f1, f2⟩ := filter_num H.nums hd
  have hu : k.use d = k := H.use (List.mem_cons_self ..)
  refine ⟨?_, ?_, ?_, ?_, ?_, ?_⟩ <;> unfold Kernel.close <;> rw [hu] <;> dsimp only
  · exact List.Perm.cons_inv (H.perm.trans f2)
  · exact (List.filter_sublist.map _).nodup H.nums
  · exact H.old
  · exact H.nodup
  · rw [f1]
    refine H.split.trans ((f2.append_right _).trans ?_)
    exact (List.perm_middle (a := d)).symm
  · exact H.wrong

/-- Each descriptor that was ever opened is either still held, and not closed yet, or has been closed
exactly once. -/
theorem once {k : Kernel} {h : List Desc} (H : KInv k h) {d : Desc} (hd : d ∈ k.opened) :
    (d ∈ h ∧ k.closed.count d = 0) ∨ (d ∉ h ∧ k.closed.count d = 1) := by
  have hc : k.opened.count d = 1 := List.count_eq_one_of_mem H.nodup hd
  have hs : k.opened.count d = h.count d + k.closed.count d := by
    rw [H.split.count_eq, List.count_append, H.perm.count_eq]
  by_cases hm : d ∈ h
  · have := List.count_pos_iff.mpr hm
    exact Or.inl ⟨hm, by omega⟩
  · have := List.count_eq_zero_of_not_mem hm
    exact Or.inr ⟨hm, by omega⟩

end KInv

end Abc.Resource

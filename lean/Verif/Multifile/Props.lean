import Verif.Multifile.Model
import Mathlib.Tactic.ClearExcept
import Mathlib.Tactic.Tauto
import Mathlib.Data.List.Chain

/-!
# C43, C52: multifile
-/

namespace Abc.Multifile
open Abc.Ascii

theorem store_ok {buf w : List Byte} {i : Nat} (h : i + w.length ≤ buf.length) :
    ∃ b, store buf i w = some b ∧ b.length = buf.length ∧ b.take (i + w.length) = buf.take i ++ w := by
  refine ⟨_, by simp only [store]; rw [if_pos h], by simp; omega, ?_⟩
  rw [List.take_append_of_le_length (by simp; omega), List.take_of_length_le (by simp; omega)]

theorem cstr_of_take {buf s : List Byte} (h : buf.take (s.length + 1) = s ++ [0]) (hs : 0 ∉ s) : cstr buf = some s := by
  induction s generalizing buf with
  | nil =>
    cases buf with
    | nil => simp at h
    | cons b bs => simp only [List.length_nil, Nat.zero_add, List.take_succ_cons, List.take_zero, List.nil_append, List.cons.injEq] at h; simp [cstr, h.1]
  | cons c s ih =>
    cases buf with
    | nil => simp at h
    | cons b bs =>
      simp only [List.length_cons, List.take_succ_cons, List.cons_append, List.cons.injEq] at h
      obtain ⟨rfl, h⟩ := h
      have hb : b ≠ 0 := fun e => hs (by simp [e])
      simp [cstr, hb, ih h (fun m => hs (by simp [m]))]

/-- The folder with exactly one separator at its end (added if missing). -/
def withSeparator (path : List Byte) : List Byte := if path.getLast? = some 47 then path else path ++ [47]

private theorem construct_ok {maxPath : Nat} {buf path : List Byte} (hbuf : buf.length = maxPath + 1) (hne : path ≠ [])
    (hlen : path.length + 16 ≤ maxPath) :
    ∃ p, construct maxPath buf path = .ok p ∧ p.buf.length = maxPath + 1 ∧ p.len = (withSeparator path).length ∧
      p.buf.take p.len = withSeparator path := by
  have hpos : 0 < path.length := List.length_pos_iff.2 hne
  obtain ⟨b, e, hl, ht⟩ := store_ok (buf := buf) (i := 0) (w := path) (by omega)
  simp only [Nat.zero_add, List.take_zero, List.nil_append] at ht
  have hlast : b[path.length - 1]? = path.getLast? := by
    have : (b.take path.length)[path.length - 1]? = b[path.length - 1]? := by
      rw [List.getElem?_take, if_pos (by omega)]
    rw [← this, ht, List.getLast?_eq_getElem?]
  have hgl : path.getLast? = some (path.getLast hne) := List.getLast?_eq_some_getLast hne
  unfold construct
  rw [if_neg (by unfold filenameLength; omega), e]
  simp only
  rw [if_neg (by omega), hlast, hgl]
  simp only
  by_cases hs : path.getLast hne = pathSeparator
  · rw [if_neg (by simpa using hs)]
    have hw : withSeparator path = path := by
      unfold withSeparator; rw [hgl, hs]; simp [pathSeparator]
    exact ⟨_, rfl, by simp only; omega, by rw [hw], by rw [hw]; exact ht⟩
  · rw [if_pos hs]
    obtain ⟨b', e', hl', ht'⟩ := store_ok (buf := b) (i := path.length) (w := [pathSeparator]) (by simp; omega)
    rw [e']
    have hw : withSeparator path = path ++ [47] := by
      unfold withSeparator; rw [hgl, if_neg]; intro h; exact hs (by simpa [pathSeparator] using h)
    refine ⟨_, rfl, by simp only; omega, by rw [hw]; simp, ?_⟩
    rw [hw]; simp only
    rw [ht] at ht'; simpa [pathSeparator] using ht'

/-- C43 (path), the part that holds.  A folder that is too long for the buffer is refused.  For every
non-empty folder that is accepted and every 15-character file name, no memory outside the array is
touched, and after every `reopen` (any list of names, one after the other) the path is
`folder/filename`, provided the folder already ends with the separator or is at least 17 characters
shorter than the buffer.
Missing: folders exactly 16 characters shorter without a separator (`path_violated_truncated`) and the
empty folder (`path_violated_empty`). -/
theorem path_partial (maxPath : Nat) (buf path : List Byte) (hbuf : buf.length = maxPath + 1) (hz : 0 ∉ path) :
    (maxPath < path.length + 16 → construct maxPath buf path = .throws) ∧
    (path ≠ [] → path.length + 16 ≤ maxPath → (path.getLast? = some 47 ∨ path.length + 17 ≤ maxPath) →
      ∃ p, construct maxPath buf path = .ok p ∧
        ∀ (names : List (List Byte)), (∀ n ∈ names, n.length = 15 ∧ 0 ∉ n) → ∀ name, name.length = 15 → 0 ∉ name →
          ∃ p', (names ++ [name]).foldlM (fun p n => setName maxPath n p) p = some p' ∧
            cstr p'.buf = some (withSeparator path ++ name)) := by
  refine ⟨fun h => by unfold construct; rw [if_pos (by unfold filenameLength; omega)], ?_⟩
  intro hne hlen hfit
  obtain ⟨p, e, hl, hp, ht⟩ := construct_ok hbuf hne hlen
  refine ⟨p, e, ?_⟩
  have hwlen : (withSeparator path).length + 16 ≤ maxPath := by
    unfold withSeparator
    split
    · exact hlen
    · rename_i h; rcases hfit with h' | h'
      · exact absurd h' h
      · simp; omega
  have hwz : 0 ∉ withSeparator path := by
    unfold withSeparator; split
    · exact hz
    · simp [hz]
  have one : ∀ (p : PathBuf) (n : List Byte), p.buf.length = maxPath + 1 → p.len = (withSeparator path).length →
      p.buf.take p.len = withSeparator path → n.length = 15 → 0 ∉ n →
      ∃ p', setName maxPath n p = some p' ∧ p'.buf.length = maxPath + 1 ∧ p'.len = (withSeparator path).length ∧
        p'.buf.take p'.len = withSeparator path ∧ cstr p'.buf = some (withSeparator path ++ n) := by
    intro p n h1 h2 h3 h4 h5
    unfold setName
    dsimp only
    have hroom : (if p.len ≤ maxPath then maxPath - p.len else 2 ^ 64 + maxPath - p.len) = maxPath - p.len := if_pos (by omega)
    rw [hroom, if_neg (by omega), List.take_of_length_le (by omega)]
    obtain ⟨b, e, hl, hb⟩ := store_ok (buf := p.buf) (i := p.len) (w := n ++ [0]) (by simp; omega)
    rw [e]
    rw [h3, h2] at hb
    refine ⟨_, rfl, by simp only; omega, h2, ?_, ?_⟩
    · simp only
      have : b.take p.len = (b.take ((withSeparator path).length + (n ++ [0]).length)).take p.len := by
        rw [List.take_take, Nat.min_eq_left (by omega)]
      rw [this, hb, h2, List.take_left']; rfl
    · apply cstr_of_take
      · rw [List.append_assoc, ← hb]; congr 1; simp; omega
      · simp [hwz, h5]
  have gen : ∀ (names : List (List Byte)) (p : PathBuf), p.buf.length = maxPath + 1 → p.len = (withSeparator path).length →
      p.buf.take p.len = withSeparator path → (∀ n ∈ names, n.length = 15 ∧ 0 ∉ n) →
      ∃ p', names.foldlM (fun p n => setName maxPath n p) p = some p' ∧ p'.buf.length = maxPath + 1 ∧
        p'.len = (withSeparator path).length ∧ p'.buf.take p'.len = withSeparator path := by
    intro names
    induction names with
    | nil => intro p h1 h2 h3 _; exact ⟨p, rfl, h1, h2, h3⟩
    | cons n names ih =>
      intro p h1 h2 h3 h4
      obtain ⟨p1, e1, q1, q2, q3, _⟩ := one p n h1 h2 h3 (h4 n (by simp)).1 (h4 n (by simp)).2
      obtain ⟨p2, e2, q⟩ := ih p1 q1 q2 q3 (fun m hm => h4 m (by simp [hm]))
      exact ⟨p2, by simp only [List.foldlM_cons]; rw [e1]; exact e2, q⟩
  intro names hn name hname hname0
  obtain ⟨p1, e1, q1, q2, q3⟩ := gen names p hl hp (by rw [ht]) hn
  obtain ⟨p2, e2, _, _, _, c2⟩ := one p1 name q1 q2 q3 hname hname0
  refine ⟨p2, ?_, c2⟩
  rw [List.foldlM_append, e1]
  simp [e2]

example : ([111, 117, 116] : List Byte) ≠ [] ∧ (0 : Byte) ∉ ([111, 117, 116] : List Byte) ∧
    ([111, 117, 116] : List Byte).length + 17 ≤ 32 ∧ (filename 2024 2 3 4 5 6).length = 15 ∧ (0 : Byte) ∉ filename 2024 2 3 4 5 6 := by
  decide

/-- C43 is violated at the boundary: a folder without separator that is exactly 16 characters shorter
than the buffer is accepted, but the last digit of every file name is lost. -/
theorem path_violated_truncated (maxPath : Nat) (buf path name : List Byte) (c : Byte) (hbuf : buf.length = maxPath + 1) (hne : path ≠ [])
    (hz : 0 ∉ path) (hlen : path.length + 16 = maxPath) (hsep : path.getLast? ≠ some 47) (hname : name.length = 14) (hn0 : 0 ∉ name) :
    ∃ p p', construct maxPath buf path = .ok p ∧ setName maxPath (name ++ [c]) p = some p' ∧
      cstr p'.buf = some (path ++ [47] ++ name) := by
  obtain ⟨p, e, hl, hp, ht⟩ := construct_ok hbuf hne (by omega)
  have hw : withSeparator path = path ++ [47] := by unfold withSeparator; rw [if_neg hsep]
  rw [hw] at hp ht
  have hplen : p.len = path.length + 1 := by simpa using hp
  obtain ⟨b, e', hl', hb⟩ := store_ok (buf := p.buf) (i := p.len) (w := name ++ [0]) (by simp; omega)
  refine ⟨p, ⟨b, p.len⟩, e, ?_, ?_⟩
  · unfold setName
    dsimp only
    have hroom : (if p.len ≤ maxPath then maxPath - p.len else 2 ^ 64 + maxPath - p.len) = maxPath - p.len := if_pos (by omega)
    rw [hroom, if_neg (by omega), List.take_append_of_le_length (by omega), List.take_of_length_le (by omega), e']
  · apply cstr_of_take
    · rw [ht] at hb
      rw [List.append_assoc (path ++ [47]) name [0], ← hb]; congr 1; simp; omega
    · simp [hz, hn0]

example : ([97, 98] : List Byte).length + 16 = 18 ∧ ([97, 98] : List Byte).getLast? ≠ some 47 ∧
    ((filename 2024 2 3 4 5 6).take 14).length = 14 := by decide

/-- C43 is violated for the empty folder: the constructor reads before the array. -/
theorem path_violated_empty (maxPath : Nat) (buf : List Byte) (h : 16 ≤ maxPath) :
    construct maxPath buf [] = .ub := by
  unfold construct
  rw [if_neg (by simp [filenameLength]; omega)]
  simp [store]

/-! ## Rotation by size -/

/-- Bytes written to the current file since it was opened. -/
def SizeFile.size (f : SizeFile) : Nat := (f.fs f.name).length

/-- C43 (size), the part that holds: when the program writes only through `write` (the block
operations), then at every flush of every history, if the current file has reached the limit a new one
is opened, and a new one is opened only if the current file has reached at least half the limit; if
nothing stays in the put area, a new file is opened exactly if the limit is reached.
Missing: exactness with buffering and character output (`size_violated_early`,
`size_violated_missed`). -/
theorem size_partial (limit : Nat) (name0 : List Byte) (fs0 : List Byte → List Byte) (ops : List Op)
    (hops : ∀ op ∈ ops, ∀ c full, op ≠ .putc c full) (name : List Byte) :
    let f := ops.foldl (SizeFile.step limit) (SizeFile.new name0 fs0)
    let f' := f.step limit (.sync name)
    (limit ≤ f.size → f'.name = name ∧ f'.size = 0) ∧
    (2 * f.size < limit → f'.name = f.name ∧ f'.fs = f.fs) ∧
    ((∀ op ∈ ops, ∀ data, op ≠ .write data true) → f.size < limit → f'.name = f.name ∧ f'.fs = f.fs) := by
  intro f f'
  have inv : ∀ (ops : List Op) (f : SizeFile), (∀ op ∈ ops, ∀ c full, op ≠ .putc c full) →
      (f.size ≤ f.current ∧ f.inArea ≤ f.size ∧ f.current + f.inArea ≤ 2 * f.size) →
      ((ops.foldl (SizeFile.step limit) f).size ≤ (ops.foldl (SizeFile.step limit) f).current ∧
        (ops.foldl (SizeFile.step limit) f).inArea ≤ (ops.foldl (SizeFile.step limit) f).size ∧
        (ops.foldl (SizeFile.step limit) f).current + (ops.foldl (SizeFile.step limit) f).inArea ≤ 2 * (ops.foldl (SizeFile.step limit) f).size) := by
    intro ops
    induction ops with
    | nil => intro f _ h; exact h
    | cons op ops ih =>
      intro f h1 h2
      simp only [List.foldl_cons]
      apply ih _ (fun o ho => h1 o (by simp [ho]))
      cases op with
      | write data b =>
        cases b <;> simp [SizeFile.step, SizeFile.size, appendFile] <;> unfold SizeFile.size at h2 <;> omega
      | putc c full => exact absurd rfl (h1 _ (by simp) c full)
      | sync n =>
        unfold SizeFile.step
        dsimp only
        split
        · simp [SizeFile.size, openFile]
        · simp only [SizeFile.size] at h2 ⊢; omega
  have inv0 : ∀ (ops : List Op) (f : SizeFile), (∀ op ∈ ops, ∀ c full, op ≠ .putc c full) → (∀ op ∈ ops, ∀ data, op ≠ .write data true) →
      f.inArea = 0 → f.current = f.size →
      (ops.foldl (SizeFile.step limit) f).inArea = 0 ∧ (ops.foldl (SizeFile.step limit) f).current = (ops.foldl (SizeFile.step limit) f).size := by
    intro ops
    induction ops with
    | nil => intro f _ _ h1 h2; exact ⟨h1, h2⟩
    | cons op ops ih =>
      intro f h1 h2 h3 h4
      simp only [List.foldl_cons]
      have : (f.step limit op).inArea = 0 ∧ (f.step limit op).current = (f.step limit op).size := by
        cases op with
        | write data b =>
          cases b
          · simp [SizeFile.step, SizeFile.size, appendFile] at h4 ⊢; omega
          · exact absurd rfl (h2 _ (by simp) data)
        | putc c full => exact absurd rfl (h1 _ (by simp) c full)
        | sync n =>
          unfold SizeFile.step
          dsimp only
          split
          · simp [SizeFile.size, openFile]
          · refine ⟨rfl, ?_⟩; show f.current + f.inArea = f.size; omega
      exact ih _ (fun o ho => h1 o (by simp [ho])) (fun o ho => h2 o (by simp [ho])) this.1 this.2
  have hf : f.size ≤ f.current ∧ f.inArea ≤ f.size ∧ f.current + f.inArea ≤ 2 * f.size := inv ops (SizeFile.new name0 fs0) hops (by simp [SizeFile.new, SizeFile.size, openFile])
  refine ⟨fun h => ?_, fun h => ?_, fun hb h => ?_⟩
  · have : f' = ⟨0, 0, name, openFile name f.fs⟩ := by
      show f.step limit (.sync name) = _
      unfold SizeFile.step; dsimp only; rw [if_pos]; omega
    rw [this]; simp [SizeFile.size, openFile]
  · have : f' = { f with current := f.current + f.inArea, inArea := 0 } := by
      show f.step limit (.sync name) = _
      unfold SizeFile.step; dsimp only; rw [if_neg]; omega
    rw [this]; exact ⟨rfl, rfl⟩
  · have h0 : f.inArea = 0 ∧ f.current = f.size := inv0 ops (SizeFile.new name0 fs0) hops hb (by simp [SizeFile.new]) (by simp [SizeFile.new, SizeFile.size, openFile])
    have : f' = { f with current := f.current + f.inArea, inArea := 0 } := by
      show f.step limit (.sync name) = _
      unfold SizeFile.step; dsimp only; rw [if_neg]; omega
    rw [this]; exact ⟨rfl, rfl⟩

example : ∀ op ∈ [Op.write [1, 2] true, .sync [], .write [3] false], ∀ c full, op ≠ .putc c full := by
  intro op h; simp at h; rcases h with rfl | rfl | rfl <;> simp

/-- C43 is violated: buffered bytes are counted twice, so a new file is opened before the limit. -/
theorem size_violated_early (limit : Nat) (name0 name data : List Byte) (fs0 : List Byte → List Byte)
    (h1 : data.length < limit) (h2 : limit ≤ 2 * data.length) :
    let f := [Op.write data true].foldl (SizeFile.step limit) (SizeFile.new name0 fs0)
    f.size < limit ∧ (f.step limit (.sync name)).name = name ∧ (f.step limit (.sync name)).size = 0 := by
  intro f
  refine ⟨by simp [f, SizeFile.step, SizeFile.size, SizeFile.new, appendFile, openFile]; omega, ?_⟩
  have : f.step limit (.sync name) = ⟨0, 0, name, openFile name f.fs⟩ := by
    unfold SizeFile.step; dsimp only; rw [if_pos]
    simp [f, SizeFile.step, SizeFile.new]; omega
  rw [this]; simp [SizeFile.size, openFile]

example : ([1, 2, 3] : List Byte).length < 5 ∧ 5 ≤ 2 * ([1, 2, 3] : List Byte).length := by decide

/-- C43 is violated: characters that leave the put area because it is full are never counted, so the
file grows past the limit without being replaced, whatever its size `n` is. -/
theorem size_violated_missed (limit n : Nat) (hl : 2 ≤ limit) (name0 name : List Byte) (fs0 : List Byte → List Byte) (c : Byte) :
    let f := (List.replicate (n + 1) (Op.putc c true)).foldl (SizeFile.step limit) (SizeFile.new name0 fs0)
    f.size = n + 1 ∧ (f.step limit (.sync name)).fs = f.fs := by
  have gen : ∀ (n : Nat) (f : SizeFile),
      ((List.replicate n (Op.putc c true)).foldl (SizeFile.step limit) f).size = f.size + n ∧
      ((List.replicate n (Op.putc c true)).foldl (SizeFile.step limit) f).current = f.current ∧
      (n ≠ 0 → ((List.replicate n (Op.putc c true)).foldl (SizeFile.step limit) f).inArea = 1) := by
    intro n
    induction n with
    | zero => intro f; simp
    | succ n ih =>
      intro f
      simp only [List.replicate_succ, List.foldl_cons]
      obtain ⟨a, b, d⟩ := ih (f.step limit (.putc c true))
      refine ⟨?_, ?_, fun _ => ?_⟩
      · rw [a]; simp [SizeFile.step, SizeFile.size, appendFile]; omega
      · rw [b]; rfl
      · by_cases hn : n = 0
        · subst hn; simp [SizeFile.step]
        · exact d hn
  intro f
  obtain ⟨a, b, d⟩ := gen (n + 1) (SizeFile.new name0 fs0)
  refine ⟨by show SizeFile.size _ = _; rw [a]; simp [SizeFile.new, SizeFile.size, openFile], ?_⟩
  have hc : f.current + f.inArea = 1 := by
    show SizeFile.current _ + SizeFile.inArea _ = 1
    rw [b, d (by omega)]; rfl
  unfold SizeFile.step; dsimp only
  rw [hc, if_neg (by omega)]

example : (2 : Nat) ≤ 1024 := by decide

/-- C52 is violated: if the limit is reached twice within one second (same name), opening the "new" file
destroys everything that was written to the previous one. -/
theorem rotation_loses_data (limit : Nat) (name data : List Byte) (fs0 : List Byte → List Byte) (h : limit ≤ data.length) :
    let f := [Op.write data false].foldl (SizeFile.step limit) (SizeFile.new name fs0)
    f.fs name = data ∧ (f.step limit (.sync name)).fs name = [] := by
  intro f
  refine ⟨by simp [f, SizeFile.step, SizeFile.new, appendFile, openFile], ?_⟩
  unfold SizeFile.step; dsimp only
  rw [if_pos]
  · simp [openFile]
  · simp [f, SizeFile.step, SizeFile.new]; omega

example : (2 : Nat) ≤ ([1, 2, 3] : List Byte).length := by decide

/-- The names that come with the flushes of a history. -/
def syncNames : List Op → List (List Byte)
  | [] => []
  | .sync n :: ops => n :: syncNames ops
  | _ :: ops => syncNames ops

/-- All bytes a history writes. -/
def allBytes : List Op → List Byte
  | [] => []
  | .write d _ :: ops => d ++ allBytes ops
  | .putc c _ :: ops => c :: allBytes ops
  | .sync _ :: ops => allBytes ops

/-- C52, the part that holds: while every flush comes with a name not used before, no content is ever
lost: concatenating the files in the order of their names gives all bytes written.
Missing: names repeat within a second, and on every February 29 (`names_collide_on_leap_days`). -/
theorem rotation_keeps_data_partial (limit : Nat) (name0 : List Byte) (fs0 : List Byte → List Byte) (ops : List Op)
    (hnew : (name0 :: syncNames ops).Nodup) :
    ∃ names : List (List Byte), (names ++ [(ops.foldl (SizeFile.step limit) (SizeFile.new name0 fs0)).name]).Nodup ∧
      (∀ n ∈ names ++ [(ops.foldl (SizeFile.step limit) (SizeFile.new name0 fs0)).name],
        n ∈ name0 :: syncNames ops) ∧
      ((names ++ [(ops.foldl (SizeFile.step limit) (SizeFile.new name0 fs0)).name]).flatMap
        (ops.foldl (SizeFile.step limit) (SizeFile.new name0 fs0)).fs)
      = allBytes ops := by
  have gen : ∀ (ops : List Op) (f : SizeFile) (names : List (List Byte)) (done : List Byte),
      ((names ++ [f.name]) ++ syncNames ops).Nodup →
      (names ++ [f.name]).flatMap f.fs = done →
      ∃ names', (names' ++ [(ops.foldl (SizeFile.step limit) f).name]).Nodup ∧
        (∀ n ∈ names' ++ [(ops.foldl (SizeFile.step limit) f).name],
          n ∈ (names ++ [f.name]) ++ syncNames ops) ∧
        (names' ++ [(ops.foldl (SizeFile.step limit) f).name]).flatMap (ops.foldl (SizeFile.step limit) f).fs
          = done ++ allBytes ops := by
    have app : ∀ (f : SizeFile) (names : List (List Byte)) (d : List Byte), f.name ∉ names →
        (names ++ [f.name]).flatMap (appendFile f.name d f.fs) = (names ++ [f.name]).flatMap f.fs ++ d := by
      intro f names d h
      rw [List.flatMap_append, List.flatMap_append]
      have : names.flatMap (appendFile f.name d f.fs) = names.flatMap f.fs := by
        clear * - h
        induction names with
        | nil => rfl
        | cons a l ih =>
          simp only [List.mem_cons, not_or] at h
          rw [List.flatMap_cons, List.flatMap_cons, ih h.2]
          simp [appendFile, Ne.symm h.1]
      rw [this]; simp [appendFile]
    intro ops
    induction ops with
    | nil => intro f names done h1 h2; exact ⟨names, by simpa [syncNames] using h1, by simp [syncNames], by simpa [allBytes] using h2⟩
    | cons op ops ih =>
      intro f names done h1 h2
      have hmem : f.name ∉ names := by
        have := h1
        rw [List.nodup_append] at this
        have := this.1
        rw [List.nodup_append] at this
        intro hm; exact this.2.2 _ hm _ (by simp) rfl
      cases op with
      | write d b =>
        obtain ⟨n', a1, a2, a3⟩ := ih (f.step limit (.write d b)) names (done ++ d) h1
          (by rw [← h2]; exact app f names d hmem)
        exact ⟨n', a1, a2, by simpa [allBytes] using a3⟩
      | putc c b =>
        obtain ⟨n', a1, a2, a3⟩ := ih (f.step limit (.putc c b)) names (done ++ [c]) h1
          (by rw [← h2]; exact app f names [c] hmem)
        exact ⟨n', a1, a2, by simpa [allBytes] using a3⟩
      | sync n =>
        simp only [syncNames] at h1
        by_cases hr : f.current + f.inArea ≥ limit
        · have es : f.step limit (.sync n) = ⟨0, 0, n, openFile n f.fs⟩ := by
            unfold SizeFile.step; dsimp only; rw [if_pos hr]
          have hn : n ∉ names ++ [f.name] := by
            rw [List.nodup_append] at h1
            intro hm; exact h1.2.2 _ hm _ (by simp) rfl
          have hsame : (names ++ [f.name]).flatMap (openFile n f.fs) = (names ++ [f.name]).flatMap f.fs := by
            generalize names ++ [f.name] = l at hn
            clear * - hn
            induction l with
            | nil => rfl
            | cons a l ih =>
              simp only [List.mem_cons, not_or] at hn
              rw [List.flatMap_cons, List.flatMap_cons, ih hn.2]
              simp [openFile, Ne.symm hn.1]
          obtain ⟨n', a1, a2, a3⟩ := ih ⟨0, 0, n, openFile n f.fs⟩ (names ++ [f.name]) done
            (by simpa using h1) (by rw [List.flatMap_append, hsame, h2]; simp [openFile])
          simp only [List.foldl_cons, es]
          exact ⟨n', a1, by simpa [syncNames] using a2, by simpa [allBytes] using a3⟩
        · have es : f.step limit (.sync n) = { f with current := f.current + f.inArea, inArea := 0 } := by
            unfold SizeFile.step; dsimp only; rw [if_neg hr]
          obtain ⟨n', a1, a2, a3⟩ := ih { f with current := f.current + f.inArea, inArea := 0 } names done
            (by
              refine List.Sublist.nodup ?_ h1
              exact List.Sublist.append (List.Sublist.refl _) (List.sublist_cons_self _ _)) h2
          simp only [List.foldl_cons, es]
          refine ⟨n', a1, fun x hx => ?_, by simpa [allBytes] using a3⟩
          have := a2 x hx
          simp only [syncNames]
          simp only [List.mem_append, List.mem_cons] at this ⊢
          tauto
  obtain ⟨n', a1, a2, a3⟩ := gen ops (SizeFile.new name0 fs0) [] [] (by simpa [SizeFile.new] using hnew)
    (by simp [SizeFile.new, openFile])
  exact ⟨n', a1, by simpa [SizeFile.new] using a2, by simpa using a3⟩

example : (([1] : List Byte) :: syncNames [Op.write [7] true, .sync [2], .putc 8 false, .sync [3]]).Nodup := by decide

/-- File names are distinct for distinct dates and times (four-digit years). -/
theorem filename_injective (y mo d h mi s y' mo' d' h' mi' s' : Nat)
    (hy : y < 10000) (hmo : mo < 100) (hd : d < 100) (hh : h < 100) (hmi : mi < 100) (hs : s < 100)
    (hy' : y' < 10000) (hmo' : mo' < 100) (hd' : d' < 100) (hh' : h' < 100) (hmi' : mi' < 100) (hs' : s' < 100)
    (e : filename y mo d h mi s = filename y' mo' d' h' mi' s') :
    y = y' ∧ mo = mo' ∧ d = d' ∧ h = h' ∧ mi = mi' ∧ s = s' := by
  have dig : ∀ a b, digit a = digit b → a % 10 = b % 10 := by
    intro a b hab
    have := congrArg UInt8.toNat hab
    simp [digit] at this; omega
  simp only [filename, dec4, dec2, List.cons_append, List.nil_append, List.cons.injEq, and_true] at e
  obtain ⟨e1, e2, e3, e4, e5, e6, e7, e8, -, e9, e10, e11, e12, e13, e14⟩ := e
  have := dig _ _ e1; have := dig _ _ e2; have := dig _ _ e3; have := dig _ _ e4
  have := dig _ _ e5; have := dig _ _ e6; have := dig _ _ e7; have := dig _ _ e8
  have := dig _ _ e9; have := dig _ _ e10; have := dig _ _ e11; have := dig _ _ e12
  have := dig _ _ e13; have := dig _ _ e14
  refine ⟨?_, ?_, ?_, ?_, ?_, ?_⟩ <;> omega

example : filename 2024 2 3 4 5 6 = [50, 48, 50, 52, 48, 50, 48, 51, 95, 48, 52, 48, 53, 48, 54] := by decide

/-- C52 is violated even across days: because of the calendar error, February 29 and March 1 2024 (days
19782 and 19783) get the same date, so files opened at the same time of these two days collide. -/
theorem names_collide_on_leap_days :
    Timestamp.resetDate 19782 = Timestamp.resetDate 19783 ∧ Timestamp.resetDate 19782 ≠ none := by
  decide

/-! ## Rotation by duration -/

/-- C43 (duration): for every history of flushes (each with its readings of the clock, the second not
before the first), consecutive files are opened at least `duration` apart, and after a flush at time
`now` the current file is younger than `duration` or has just been opened. -/
theorem duration_exact (duration t0 : Int) (flushes : List (Int × Int)) (hmono : ∀ p ∈ flushes, p.1 ≤ p.2) :
    let f := flushes.foldl (fun f p => DurFile.sync duration p.1 p.2 f) ⟨t0, []⟩
    List.IsChain (fun later earlier => later - earlier ≥ duration) (f.ts :: f.earlier) ∧
    ∀ now after, now ≤ after →
      (now - f.ts < duration → f.sync duration now after = f) ∧
      (now - f.ts ≥ duration → f.sync duration now after = ⟨after, f.ts :: f.earlier⟩) := by
  intro f
  refine ⟨?_, fun now after _ => ⟨fun h => by unfold DurFile.sync; rw [if_neg (by omega)], fun h => by unfold DurFile.sync; rw [if_pos h]⟩⟩
  have gen : ∀ (fl : List (Int × Int)) (f : DurFile), (∀ p ∈ fl, p.1 ≤ p.2) →
      List.IsChain (fun later earlier => later - earlier ≥ duration) (f.ts :: f.earlier) →
      List.IsChain (fun later earlier => later - earlier ≥ duration)
        ((fl.foldl (fun f p => DurFile.sync duration p.1 p.2 f) f).ts :: (fl.foldl (fun f p => DurFile.sync duration p.1 p.2 f) f).earlier) := by
    intro fl
    induction fl with
    | nil => intro f _ h; exact h
    | cons p fl ih =>
      intro f hp h
      simp only [List.foldl_cons]
      apply ih _ (fun q hq => hp q (by simp [hq]))
      unfold DurFile.sync
      split
      · rename_i hge
        have := hp p (by simp)
        simp only
        exact List.isChain_cons_cons.2 ⟨by omega, h⟩
      · exact h
  exact gen flushes ⟨t0, []⟩ hmono (by simp)

example : ∀ p ∈ [((5 : Int), (6 : Int)), (20, 21)], p.1 ≤ p.2 := by decide

end Abc.Multifile

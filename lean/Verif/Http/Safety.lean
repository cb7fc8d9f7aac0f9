import Verif.Http.Messages

/-!
# C13, C14 and C16 for the HTTP readers

Any input, any stream state, any order of calls.
-/

namespace Abc.Http

open Abc.Ascii Abc.Stream

/-! ## Progress and failure lemmas -/

theorem skipSpaces_safe (fuel : Nat) (s : In) (hf : s.meas < fuel) :
    ∃ k, skipSpaces fuel s = .ok k ∧ k.s.meas + k.n ≤ s.meas := skipChars_safe fuel s hf

theorem setFail_meas (s : In) : s.setFail.meas ≤ s.meas := by
  simp [In.meas]

theorem setBad_meas (s : In) : s.setBad.meas ≤ s.meas := by
  simp [In.meas]

theorem skipCrlf_meas (s : In) : (skipCrlf s).meas ≤ s.meas := by
  unfold skipCrlf
  have h1 := In.getCharS_meas isAscii s
  have h2 := In.getCharS_meas isAscii (s.getCharS isAscii)
  split
  · exact Nat.le_trans (setFail_meas _) h1
  · split
    · exact Nat.le_trans (setFail_meas _) (Nat.le_trans h2 h1)
    · exact Nat.le_trans h2 h1

/-- A stream that is good after `get_char` was good and has lost one byte. -/
theorem getCharS_good {s : In} {valid : Byte → Bool} (h : (s.getCharS valid).good = true) :
    ∃ c r, s = In.ofList (c :: r) ∧ valid c = true ∧ s.getCharS valid = In.ofList r := by
  cases hg : s.good with
  | false =>
    have := In.peekCharS_notgood valid hg
    rw [In.getCharS, if_neg (by simp [this]), this] at h
    cases h
  | true =>
    rcases In.peekS_cases s hg with ⟨c, r, rfl, _⟩ | ⟨rfl, _⟩
    · by_cases hv : valid c = true
      · exact ⟨c, r, rfl, hv, In.getCharS_cons r hv⟩
      · exfalso
        have : ((In.ofList (c :: r)).peekCharS valid).good = false := by simp [In.peekCharS, hv]
        rw [In.getCharS, if_neg (by simp [this]), this] at h
        cases h
    · exfalso
      have : ((In.ofList []).peekCharS valid).good = false := by
        unfold In.peekCharS; split
        · rfl
        · simp
      rw [In.getCharS, if_neg (by simp [this]), this] at h
      cases h

theorem skipCrlf_good {s : In} (h : (skipCrlf s).good = true) : (skipCrlf s).meas < s.meas := by
  unfold skipCrlf at h ⊢
  split at h
  · simp at h
  · split at h
    · simp at h
    · rename_i h1 h2
      rw [if_neg h1, if_neg h2]
      obtain ⟨c, r, e, _, e2⟩ := getCharS_good h
      rw [e2]
      have := In.getCharS_meas isAscii s
      rw [e] at this
      simp [In.meas] at this ⊢
      omega

/-! ## C14 -/

/-- The calls of `http_request_istream` and `http_response_istream`. -/
inductive RKind where
  | method | resource | requestProtocol | responseProtocol | statusCode | reasonPhrase | headerName
  | headerValue | body
  deriving DecidableEq, Repr

/-- Make a call with the buffer `mem` and the argument `size`. -/
def rcall (fuel : Nat) (st : Rd) (mem : List Byte) (size : Nat) : RKind → Res RdRes
  | .method => getMethod fuel st mem size
  | .resource => getResource fuel st mem size
  | .requestProtocol => getRequestProtocol fuel st mem size
  | .responseProtocol => getResponseProtocol fuel st mem size
  | .statusCode => getStatusCode fuel st mem size
  | .reasonPhrase => getReasonPhrase fuel st mem size
  | .headerName => getHeaderName fuel st mem size
  | .headerValue => getHeaderValue fuel st mem size
  | .body => getBody fuel st mem size

/-- The smallest buffer a call works with. -/
def RKind.minSize : RKind → Nat
  | .resource => 2
  | .body => 0
  | _ => 1

theorem protoPart_safe (fuel : Nat) (ch : Byte) (hch : ch ≠ 0) (size : Nat) (h1 : 1 ≤ size) (h2 : size < 2 ^ 64) (s : In)
    (mem : List Byte) (n : Nat) (hm : size ≤ mem.length) (hn : n ≤ size - 1) (h0 : mem[n]? = some 0)
    (hf : s.meas < fuel) :
    ∃ g, protoPart fuel ch size s mem n = .ok g ∧ SameOutside mem g.mem 0 size ∧ g.n ≤ size - 1 ∧
      g.mem[g.n]? = some 0 ∧ g.s.meas ≤ s.meas := by
  unfold protoPart
  rw [sub64_eq h1 h2]
  dsimp only
  by_cases hns : n = size - 1
  · rw [if_pos hns, if_neg (by simp)]
    exact ⟨_, rfl, SameOutside.refl _ _ _, hn, h0, setFail_meas s⟩
  · rw [if_neg hns]
    by_cases hg : s.good = true
    · rw [if_pos hg]
      by_cases hp : s.peekCharV isAscii = ch
      · rw [if_pos hp, wr_ok (by omega), Res.ok_bind]
        have hgood : (s.getCharS isAscii).good = true := by
          obtain ⟨r, rfl⟩ : ∃ r, s = In.ofList r := ⟨_, In.eq_ofList hg⟩
          cases r with
          | nil => exact absurd (by rw [← hp]; decide) hch
          | cons c r =>
            by_cases hc : isAscii c = true
            · rw [In.getCharS_cons r hc]; rfl
            · exfalso; apply hch; rw [← hp]; simp [In.peekCharV, hc]
        rw [if_pos hgood, sub64_eq (by omega) h2]
        have hmeas := In.getCharS_meas isAscii s
        obtain ⟨g, a, b, c, d, e⟩ := getChars_safe (valid := isAscii) (pred := isDigit) (off := n + 1)
          (size := size - (n + 1)) (by omega) (by omega) fuel (s.getCharS isAscii) (mem.set n ch)
          (by simp; omega) (by omega)
        rw [a, Res.ok_bind]
        refine ⟨_, rfl, ?_, by dsimp only; omega, ?_, by dsimp only; omega⟩
        · exact (SameOutside.set (by omega) (by omega)).trans (b.mono (by omega) (by omega))
        · exact d
      · rw [if_neg hp]
        refine ⟨_, rfl, SameOutside.refl _ _ _, hn, h0, ?_⟩
        exact Nat.le_trans (setBad_meas _) (In.getCharS_meas isAscii s)
    · rw [if_neg hg]
      exact ⟨_, rfl, SameOutside.refl _ _ _, hn, h0, Nat.le_refl _⟩

theorem protoHead_safe (g : Got) (hm : 4 ≤ g.mem.length ∨ g.n ≠ 4) :
    ∃ s, protoHead g = .ok s ∧ s.meas ≤ g.s.meas := by
  unfold protoHead
  split
  · exact ⟨_, rfl, setBad_meas _⟩
  · rename_i hn
    have hl : 4 ≤ g.mem.length := by rcases hm with h | h; exact h; exact absurd h hn
    have : ∃ e, areEqualIN (some [72, 84, 84, 80, 0]) (some g.mem) 4 = some e := by
      obtain ⟨a, b, c, d, m, hmem⟩ : ∃ a b c d m, g.mem = a :: b :: c :: d :: m := by
        match hmem : g.mem, hl with
        | a :: b :: c :: d :: m, _ => exact ⟨a, b, c, d, m, rfl⟩
      rw [hmem]
      simp only [areEqualIN, areEqual, areEqualLoop_cons]
      repeat' (first | exact ⟨_, rfl⟩ | split)
    obtain ⟨e, he⟩ := this
    rw [he]
    refine ⟨_, rfl, ?_⟩
    unfold In.setBadIf
    split
    · exact setBad_meas _
    · exact Nat.le_refl _

theorem getProtocolBase_safe (fuel : Nat) (s : In) (mem : List Byte) (size : Nat) (h1 : 1 ≤ size)
    (h2 : size < 2 ^ 64) (hm : size ≤ mem.length) (hf : s.meas < fuel) :
    ∃ g, getProtocolBase fuel s mem size = .ok g ∧ SameOutside mem g.mem 0 size ∧ g.n ≤ size - 1 ∧
      g.mem[g.n]? = some 0 ∧ g.s.meas ≤ s.meas := by
  unfold getProtocolBase
  obtain ⟨g, a1, b1, c1, d1, e1⟩ := getChars_safe (valid := isAscii) (pred := isAlpha) (off := 0) h1 h2 fuel s mem
    (by omega) hf
  rw [a1, Res.ok_bind]
  rw [Nat.zero_add] at d1 b1
  have hl : g.mem.length = mem.length := b1.1
  obtain ⟨s1, a2, b2⟩ := protoHead_safe g (by omega)
  rw [a2, Res.ok_bind]
  obtain ⟨g3, a3, b3, c3, d3, e3⟩ := protoPart_safe fuel 47 (by decide) size h1 h2 s1 g.mem g.n (by omega) c1 d1 (by omega)
  rw [a3, Res.ok_bind]
  have hl3 : g3.mem.length = g.mem.length := b3.1
  obtain ⟨g4, a4, b4, c4, d4, e4⟩ := protoPart_safe fuel 46 (by decide) size h1 h2 g3.s g3.mem g3.n (by omega) c3 d3 (by omega)
  rw [a4, Res.ok_bind]
  obtain ⟨k, a5, b5⟩ := skipSpaces_safe fuel g4.s (by omega)
  rw [a5, Res.ok_bind]
  exact ⟨_, rfl, (b1.trans b3).trans b4, c4, d4, by dsimp only; omega⟩

theorem hvSpace_safe (size : Nat) (h1 : 1 ≤ size) (h2 : size < 2 ^ 64) (k : Skipped) (mem : List Byte) (n : Nat)
    (hm : size ≤ mem.length) (hn : n ≤ size - 1) (h0 : n = 0 ∨ mem[n]? = some 0) :
    ∃ h, hvSpace size k mem n = .ok h ∧ SameOutside mem h.mem 0 size ∧ h.n ≤ size - 1 ∧ h.s.meas ≤ k.s.meas ∧
      (h.ret = true → h.mem[h.n]? = some 0) := by
  unfold hvSpace
  rw [sub64_eq h1 h2]
  have hp := In.peekCharS_meas isAscii k.s
  split
  · rename_i hnk
    split
    · split
      · refine ⟨_, rfl, SameOutside.refl _ _ _, hn, Nat.le_trans (setFail_meas _) hp, fun _ => ?_⟩
        rcases h0 with h | h
        · omega
        · exact h
      · rw [wr_ok (by omega), Res.ok_bind]
        exact ⟨_, rfl, SameOutside.set (by omega) (by omega), by dsimp only; omega, hp, by simp⟩
    · exact ⟨_, rfl, SameOutside.refl _ _ _, hn, hp, by simp⟩
  · exact ⟨_, rfl, SameOutside.refl _ _ _, hn, Nat.le_refl _, by simp⟩

theorem hvInner_safe (fuel size : Nat) (h1 : 1 ≤ size) (h2 : size < 2 ^ 64) (f : Nat) (s : In) (mem : List Byte)
    (n : Nat) (hm : size ≤ mem.length) (hn : n ≤ size - 1) (h0 : n = 0 ∨ mem[n]? = some 0)
    (hf : s.meas < fuel) (hf' : s.meas < f) :
    ∃ h, hvInner fuel size f s mem n = .ok h ∧ SameOutside mem h.mem 0 size ∧ h.n ≤ size - 1 ∧
      h.s.meas ≤ s.meas ∧ h.mem[h.n]? = some 0 := by
  induction f generalizing s mem n with
  | zero => omega
  | succ f ih =>
    rw [hvInner]
    obtain ⟨k, a1, b1⟩ := skipSpaces_safe fuel s hf
    rw [a1, Res.ok_bind]
    obtain ⟨h, a2, b2, c2, d2, e2⟩ := hvSpace_safe size h1 h2 k mem n hm hn h0
    rw [a2, Res.ok_bind]
    have hl : h.mem.length = mem.length := b2.1
    cases hr : h.ret with
    | true =>
      rw [if_pos rfl]
      exact ⟨h, rfl, b2, c2, by omega, e2 hr⟩
    | false =>
      rw [if_neg (by simp), sub64_eq (by omega) h2]
      obtain ⟨g, a3, b3, c3, d3, e3⟩ := getChars_safe (valid := isAscii) (pred := isAbcprint) (off := h.n)
        (size := size - h.n) (by omega) (by omega) fuel h.s h.mem (by omega) (by omega)
      rw [a3, Res.ok_bind]
      have b3' := b3.mono (lo' := 0) (hi' := size) (by omega) (by omega)
      split
      · rename_i hg
        have hl3 : g.mem.length = h.mem.length := b3.1
        obtain ⟨h', a4, b4, c4, d4, e4⟩ := ih g.s g.mem (h.n + g.n) (by omega) (by omega) (Or.inr d3) (by omega) (by omega)
        exact ⟨h', a4, (b2.trans b3').trans b4, c4, by omega, e4⟩
      · exact ⟨_, rfl, b2.trans b3', by dsimp only; omega, by dsimp only; omega, d3⟩

theorem hvOuter_safe (fuel size : Nat) (h1 : 1 ≤ size) (h2 : size < 2 ^ 64) (f : Nat) (s : In) (mem : List Byte)
    (n : Nat) (hm : size ≤ mem.length) (hn : n ≤ size - 1) (h0 : n = 0 ∨ mem[n]? = some 0)
    (hf : s.meas < fuel) (hf' : s.meas < f) :
    ∃ h, hvOuter fuel size f s mem n = .ok h ∧ SameOutside mem h.mem 0 size ∧ h.n ≤ size - 1 ∧
      h.s.meas ≤ s.meas ∧ h.mem[h.n]? = some 0 := by
  induction f generalizing s mem n with
  | zero => omega
  | succ f ih =>
    rw [hvOuter]
    obtain ⟨h, a1, b1, c1, d1, e1⟩ := hvInner_safe fuel size h1 h2 fuel s mem n hm hn h0 hf hf
    rw [a1, Res.ok_bind]
    have hl : h.mem.length = mem.length := b1.1
    have hk := skipCrlf_meas h.s
    have hp := In.peekCharS_meas isAscii (skipCrlf h.s)
    split
    · exact ⟨h, rfl, b1, c1, d1, e1⟩
    · split
      · rename_i hg
        have hlt := skipCrlf_good hg
        split
        · obtain ⟨h', a2, b2, c2, d2, e2⟩ := ih ((skipCrlf h.s).peekCharS isAscii) h.mem h.n (by omega) c1 (Or.inr e1)
            (by omega) (by omega)
          exact ⟨h', a2, b1.trans b2, c2, by omega, e2⟩
        · exact ⟨_, rfl, b1, c1, by dsimp only; omega, e1⟩
      · exact ⟨_, rfl, b1, c1, by dsimp only; omega, e1⟩

theorem getBytesLoop_safe (size fuel : Nat) (s : In) (mem : List Byte) (n : Nat) (hm : size ≤ mem.length)
    (hn : n ≤ size) (hf : s.meas < fuel) :
    ∃ g, getBytesLoop size fuel s mem n = .ok g ∧ SameOutside mem g.mem 0 size ∧ g.n ≤ size ∧ g.s.meas ≤ s.meas := by
  induction fuel generalizing s mem n with
  | zero => omega
  | succ f ih =>
    rw [getBytesLoop]
    split
    · rename_i h
      rw [wr_ok (by omega), Res.ok_bind]
      have := In.getS_meas h.1
      obtain ⟨g, a, b, c, d⟩ := ih s.getS (mem.set n s.getV) (n + 1) (by simp; omega) (by omega) (by omega)
      exact ⟨g, a, (SameOutside.set (by omega) (by omega)).trans b, c, by omega⟩
    · exact ⟨_, rfl, SameOutside.refl _ _ _, hn, Nat.le_refl _⟩

/-- What C14 promises about a call. -/
structure Safe (mem : List Byte) (size : Nat) (k : RKind) (r : RdRes) : Prop where
  same : SameOutside mem r.mem 0 size
  count : r.thrown = false → r.st.gcount ≤ size
  nul : r.thrown = false → k ≠ .body → r.st.gcount < size ∧ r.mem[r.st.gcount]? = some 0

/-- C14.  Every reader call, on any input, in any stream state, in or out of order, with a buffer of at
least `size` bytes: it returns, writes only inside the first `size` bytes, reports at most `size`
bytes, and (apart from the body) leaves a NUL inside the buffer right after the reported bytes.
`size` is at least 1 (2 for the resource); see `size0_violated`. -/
theorem reader_safe_partial (k : RKind) (st : Rd) (mem : List Byte) (size : Nat) (h1 : k.minSize ≤ size) (h2 : size < 2 ^ 64)
    (hm : size ≤ mem.length) (fuel : Nat) (hf : st.s.rest.length + 1 < fuel) :
    ∃ r, rcall fuel st mem size k = .ok r ∧ Safe mem size k r ∧ r.st.s.meas ≤ st.s.meas := by
  have hmeas : st.s.meas < fuel := by
    have : st.s.meas ≤ st.s.rest.length + 1 := by unfold In.meas; split <;> omega
    omega
  have hthrow : ∃ r, (Res.ok (⟨st, mem, true⟩ : RdRes)) = .ok r ∧ Safe mem size k r ∧ r.st.s.meas ≤ st.s.meas :=
    ⟨_, rfl, ⟨SameOutside.refl _ _ _, by simp, by simp⟩, Nat.le_refl _⟩
  have hsafe : ∀ (s : In) (nx : Item) (m : List Byte) (n : Nat), s.meas ≤ st.s.meas → SameOutside mem m 0 size →
      n < size → m[n]? = some 0 →
      ∃ r, (Res.ok (⟨⟨s, nx, n⟩, m, false⟩ : RdRes)) = .ok r ∧ Safe mem size k r ∧ r.st.s.meas ≤ st.s.meas :=
    fun s nx m n h1 h2 h3 h4 => ⟨_, rfl, ⟨h2, fun _ => by dsimp only; omega, fun _ _ => ⟨h3, h4⟩⟩, h1⟩
  cases k with
  | method =>
    simp only [rcall, getMethod]; split
    · exact hthrow
    · obtain ⟨g, a, b, c, d, e⟩ := getChars_safe (valid := isAscii) (pred := httpIsToken) (off := 0) h1 h2 fuel st.s mem
        (by omega) hmeas
      obtain ⟨k, a2, b2⟩ := skipSpaces_safe fuel g.s (by omega)
      rw [a, Res.ok_bind, a2, Res.ok_bind]
      rw [Nat.zero_add] at b d
      exact hsafe _ _ _ _ (by omega) b (by simp [RKind.minSize] at h1; omega) d
  | resource =>
    simp only [rcall, getResource]; split
    · exact hthrow
    · simp only [RKind.minSize] at h1
      rw [sub64_eq (by omega) h2]
      obtain ⟨g, a, b, c, d, e⟩ := getChars_safe (valid := isAscii) (pred := isAbcprint) (off := 0) (size := size - 1)
        (by omega) (by omega) fuel st.s mem (by omega) hmeas
      obtain ⟨k, a2, b2⟩ := skipSpaces_safe fuel g.s (by omega)
      have hl : g.mem.length = mem.length := b.1
      rw [a, Res.ok_bind, wr_ok (by omega), Res.ok_bind, a2, Res.ok_bind]
      rw [Nat.zero_add] at b d
      refine hsafe _ _ _ _ (by omega) ((b.mono (by omega) (by omega)).trans (SameOutside.set (by omega) (by omega)))
        (by omega) ?_
      rw [List.getElem?_set_ne (by omega)]; exact d
  | requestProtocol =>
    simp only [rcall, getRequestProtocol]; split
    · exact hthrow
    · simp only [RKind.minSize] at h1
      obtain ⟨g, a, b, c, d, e⟩ := getProtocolBase_safe fuel st.s mem size h1 h2 hm hmeas
      rw [a, Res.ok_bind]
      have := skipCrlf_meas g.s
      exact hsafe _ _ _ _ (by omega) b (by omega) d
  | responseProtocol =>
    simp only [rcall, getResponseProtocol]; split
    · exact hthrow
    · simp only [RKind.minSize] at h1
      obtain ⟨g, a, b, c, d, e⟩ := getProtocolBase_safe fuel st.s mem size h1 h2 hm hmeas
      rw [a, Res.ok_bind]
      exact hsafe _ _ _ _ (by omega) b (by omega) d
  | statusCode =>
    simp only [rcall, getStatusCode]; split
    · exact hthrow
    · obtain ⟨g, a, b, c, d, e⟩ := getChars_safe (valid := isAscii) (pred := isDigit) (off := 0) h1 h2 fuel st.s mem
        (by omega) hmeas
      obtain ⟨k, a2, b2⟩ := skipSpaces_safe fuel g.s (by omega)
      rw [a, Res.ok_bind, a2, Res.ok_bind]
      rw [Nat.zero_add] at b d
      exact hsafe _ _ _ _ (by omega) b (by simp [RKind.minSize] at h1; omega) d
  | reasonPhrase =>
    simp only [rcall, getReasonPhrase]; split
    · exact hthrow
    · obtain ⟨g, a, b, c, d, e⟩ := getChars_safe (valid := isAscii) (pred := isAbcprintOrSpace) (off := 0) h1 h2 fuel st.s mem
        (by omega) hmeas
      obtain ⟨k, a2, b2⟩ := skipSpaces_safe fuel g.s (by omega)
      rw [a, Res.ok_bind, a2, Res.ok_bind]
      rw [Nat.zero_add] at b d
      have := skipCrlf_meas k.s
      exact hsafe _ _ _ _ (by omega) b (by simp [RKind.minSize] at h1; omega) d
  | headerName =>
    simp only [rcall, getHeaderName]; split
    · exact hthrow
    · simp only [RKind.minSize] at h1
      obtain ⟨g, a, b, c, d, e⟩ := getChars_safe (valid := isAscii) (pred := httpIsToken) (off := 0) h1 h2 fuel st.s mem
        (by omega) hmeas
      obtain ⟨k, a2, b2⟩ := skipSpaces_safe fuel g.s (by omega)
      rw [a, Res.ok_bind, a2, Res.ok_bind]
      rw [Nat.zero_add] at b d
      split
      · have := skipCrlf_meas k.s
        exact hsafe _ _ _ _ (by omega) b (by omega) d
      · have h3 : (if k.s.good = true then
            (if k.s.peekCharV isAscii ≠ 58 then (k.s.getCharS isAscii).setBad else k.s.getCharS isAscii)
          else k.s).meas ≤ k.s.meas := by
          split
          · split
            · exact Nat.le_trans (setBad_meas _) (In.getCharS_meas _ _)
            · exact In.getCharS_meas _ _
          · exact Nat.le_refl _
        obtain ⟨k2, a3, b3⟩ := skipSpaces_safe fuel (if k.s.good = true then
            (if k.s.peekCharV isAscii ≠ 58 then (k.s.getCharS isAscii).setBad else k.s.getCharS isAscii)
          else k.s) (by omega)
        rw [a3, Res.ok_bind]
        exact hsafe _ _ _ _ (by omega) b (by omega) d
  | headerValue =>
    simp only [rcall, getHeaderValue]; split
    · exact hthrow
    · simp only [RKind.minSize] at h1
      obtain ⟨h, a, b, c, d, e⟩ := hvOuter_safe fuel size h1 h2 fuel st.s mem 0 hm (by omega) (Or.inl rfl) hmeas hmeas
      rw [a, Res.ok_bind]
      split
      · exact hsafe _ _ _ _ d b (by omega) e
      · obtain ⟨k, a2, b2⟩ := skipSpaces_safe fuel h.s (by omega)
        rw [a2, Res.ok_bind]
        exact hsafe _ _ _ _ (by omega) b (by omega) e
  | body =>
    simp only [rcall, getBody]; split
    · exact hthrow
    · obtain ⟨g, a, b, c, d⟩ := getBytesLoop_safe size fuel st.s mem 0 hm (by omega) hmeas
      rw [a, Res.ok_bind]
      exact ⟨_, rfl, ⟨b, fun _ => c, fun _ h => absurd rfl h⟩, d⟩

/-- An overlong method, and the same call out of order: the hypotheses hold, and the buffer of 3 is
filled with two characters and the NUL. -/
example : rcall 20 ⟨{ rest := [71, 69, 84, 32] }, .method, 0⟩ [1, 2, 3, 4] 3 .method =
    .ok ⟨⟨{ rest := [84, 32], fail := true }, .resource, 2⟩, [71, 69, 0, 4], false⟩ ∧
    rcall 20 ⟨{ rest := [71, 69, 84, 32] }, .body, 0⟩ [1, 2, 3, 4] 3 .method =
    .ok ⟨⟨{ rest := [71, 69, 84, 32] }, .body, 0⟩, [1, 2, 3, 4], true⟩ := by decide

/-- C14 in full: every buffer size the caller may pass. -/
def ReaderSafe : Prop :=
  ∀ (k : RKind) (st : Rd) (mem : List Byte) (size : Nat), size < 2 ^ 64 → size ≤ mem.length →
    ∃ N, ∀ fuel, N ≤ fuel → ∃ r, rcall fuel st mem size k = .ok r ∧ SameOutside mem r.mem 0 size

/-- C14 does not hold for size 0: `get_method` with a buffer of size 0 writes outside it (with a larger
block behind the pointer the characters are stored there, see `size0_overrun_violated`). -/
theorem size0_violated : ¬ ReaderSafe := by
  intro h
  obtain ⟨N, hN⟩ := h .method ⟨{ rest := [71] }, .method, 0⟩ [] 0 (by decide) (by decide)
  obtain ⟨r, hr, _⟩ := hN (N + 1) (by omega)
  have : rcall (N + 1) ⟨{ rest := [71] }, .method, 0⟩ [] 0 .method = .ub := by
    have h1 : httpIsToken 71 = true := by decide
    have h2 : isAscii 71 = true := by decide
    simp [rcall, getMethod, getChars, getCharsLoop, In.good, In.peekCharV, In.peekV, h1, h2, sub64, wr]
  rw [this] at hr; cases hr

/-- With a buffer of size 0 the bytes behind it are overwritten; the same for the resource with size 1. -/
theorem size0_overrun_violated :
    (rcall 9 ⟨{ rest := [71, 69, 32] }, .method, 0⟩ [1, 2, 3, 4] 0 .method =
      .ok ⟨⟨{ rest := [], fail := true, bad := true }, .resource, 2⟩, [71, 69, 0, 4], false⟩) ∧
    (rcall 9 ⟨{ rest := [47, 97, 98, 32] }, .resource, 0⟩ [1, 2, 3, 4, 5] 1 .resource =
      .ok ⟨⟨{ rest := [], fail := true, bad := true }, .protocol, 3⟩, [47, 97, 98, 0, 0], false⟩) := by
  decide

/-! ## C13, readers -/

/-- The place of a call in the message. -/
def RKind.item : RKind → Item
  | .method => .method
  | .resource => .resource
  | .requestProtocol => .protocol
  | .responseProtocol => .protocol
  | .statusCode => .statusCode
  | .reasonPhrase => .reasonPhrase
  | .headerName => .headerName
  | .headerValue => .headerValue
  | .body => .body

/-- C13, readers.  A call out of order throws; then nothing is consumed, no state changes and the buffer
is untouched. -/
theorem rcall_out_of_order (k : RKind) (st : Rd) (mem : List Byte) (size fuel : Nat) (h : st.next ≠ k.item) :
    rcall fuel st mem size k = .ok ⟨st, mem, true⟩ := by
  cases k <;> simp only [RKind.item] at h <;> simp [rcall, getMethod, getResource, getRequestProtocol,
    getResponseProtocol, getStatusCode, getReasonPhrase, getHeaderName, getHeaderValue, getBody, h]

theorem bind_ok {α β : Type} {r : Res α} {f : α → Res β} {b : β} (h : r.bind f = .ok b) :
    ∃ a, r = .ok a ∧ f a = .ok b := by
  cases r with
  | ok a => exact ⟨a, rfl, h⟩
  | ub => cases h
  | running => cases h

/-- What may come after an accepted call. -/
def RKind.After : RKind → Item → Prop
  | .method, i => i = .resource
  | .resource, i => i = .protocol
  | .requestProtocol, i => i = .headerName
  | .responseProtocol, i => i = .statusCode
  | .statusCode, i => i = .reasonPhrase
  | .reasonPhrase, i => i = .headerName
  | .headerName, i => i = .headerValue ∨ i = .body
  | .headerValue, i => i = .headerName ∨ i = .headerValue
  | .body, i => i = .body

/-- C13, readers.  A call in order never throws. -/
theorem rcall_in_order (k : RKind) (st : Rd) (mem : List Byte) (size fuel : Nat) (r : RdRes)
    (h : st.next = k.item) (hr : rcall fuel st mem size k = .ok r) :
    r.thrown = false ∧ k.After r.st.next ∧
      (k = .headerName → (r.st.next = .body ↔ r.st.gcount = 0)) := by
  cases k with
  | method =>
    simp only [rcall, getMethod, RKind.item] at h hr
    rw [if_neg (by simp [h])] at hr
    obtain ⟨g, _, hr⟩ := bind_ok hr
    obtain ⟨k, _, hr⟩ := bind_ok hr
    cases hr; simp [RKind.After]
  | resource =>
    simp only [rcall, getResource, RKind.item] at h hr
    rw [if_neg (by simp [h])] at hr
    obtain ⟨g, _, hr⟩ := bind_ok hr
    obtain ⟨m, _, hr⟩ := bind_ok hr
    obtain ⟨k, _, hr⟩ := bind_ok hr
    cases hr; simp [RKind.After]
  | requestProtocol =>
    simp only [rcall, getRequestProtocol, RKind.item] at h hr
    rw [if_neg (by simp [h])] at hr
    obtain ⟨g, _, hr⟩ := bind_ok hr
    cases hr; simp [RKind.After]
  | responseProtocol =>
    simp only [rcall, getResponseProtocol, RKind.item] at h hr
    rw [if_neg (by simp [h])] at hr
    obtain ⟨g, _, hr⟩ := bind_ok hr
    cases hr; simp [RKind.After]
  | statusCode =>
    simp only [rcall, getStatusCode, RKind.item] at h hr
    rw [if_neg (by simp [h])] at hr
    obtain ⟨g, _, hr⟩ := bind_ok hr
    obtain ⟨k, _, hr⟩ := bind_ok hr
    cases hr; simp [RKind.After]
  | reasonPhrase =>
    simp only [rcall, getReasonPhrase, RKind.item] at h hr
    rw [if_neg (by simp [h])] at hr
    obtain ⟨g, _, hr⟩ := bind_ok hr
    obtain ⟨k, _, hr⟩ := bind_ok hr
    cases hr; simp [RKind.After]
  | headerName =>
    simp only [rcall, getHeaderName, RKind.item] at h hr
    rw [if_neg (by simp [h])] at hr
    obtain ⟨g, _, hr⟩ := bind_ok hr
    obtain ⟨k, _, hr⟩ := bind_ok hr
    split at hr
    · rename_i h0; cases hr; simp [RKind.After, h0]
    · rename_i h0
      obtain ⟨k2, _, hr⟩ := bind_ok hr
      cases hr; simp [RKind.After, h0]
  | headerValue =>
    simp only [rcall, getHeaderValue, RKind.item] at h hr
    rw [if_neg (by simp [h])] at hr
    obtain ⟨g, _, hr⟩ := bind_ok hr
    split at hr
    · cases hr; simp [RKind.After]
    · obtain ⟨k, _, hr⟩ := bind_ok hr
      cases hr; simp [RKind.After]
  | body =>
    simp only [rcall, getBody, RKind.item] at h hr
    rw [if_neg (by simp [h])] at hr
    obtain ⟨g, _, hr⟩ := bind_ok hr
    cases hr; simp [RKind.After]

/-- Not good, and with the same bytes to come. -/
def DeadIn (s s' : In) : Prop := s'.good = false ∧ s'.rest = s.rest

theorem getCharS_dead {s s' : In} (valid : Byte → Bool) (h : DeadIn s s') : DeadIn s (s'.getCharS valid) := by
  have h1 := In.peekCharS_notgood valid h.1
  rw [In.getCharS, if_neg (by simp [h1])]
  exact ⟨h1, (In.peekCharS_rest valid s').trans h.2⟩

theorem peekCharS_dead {s s' : In} (valid : Byte → Bool) (h : DeadIn s s') : DeadIn s (s'.peekCharS valid) :=
  ⟨In.peekCharS_notgood valid h.1, (In.peekCharS_rest valid s').trans h.2⟩

theorem setFail_dead {s s' : In} (h : DeadIn s s') : DeadIn s s'.setFail := ⟨by simp, h.2⟩
theorem setBad_dead {s s' : In} (h : DeadIn s s') : DeadIn s s'.setBad := ⟨by simp, h.2⟩

theorem skipCrlf_dead {s s' : In} (h : DeadIn s s') : DeadIn s (skipCrlf s') := by
  have h1 := getCharS_dead isAscii h
  have h2 := getCharS_dead isAscii h1
  unfold skipCrlf
  split
  · exact setFail_dead h1
  · split
    · exact setFail_dead h2
    · exact h2

theorem getChars_dead {s s' : In} (h : DeadIn s s') {valid pred : Byte → Bool} {mem : List Byte} {off size fuel : Nat}
    {g : Got} (hg : getChars fuel valid pred s' mem off size = .ok g) : DeadIn s g.s ∧ g.n = 0 := by
  cases fuel with
  | zero => cases hg
  | succ f =>
    rw [getChars, getCharsLoop, if_neg (by simp [h.1]), getCharsEnd] at hg
    obtain ⟨m, _, hg⟩ := bind_ok hg
    cases hg
    exact ⟨h, rfl⟩

theorem skipSpaces_dead {s s' : In} (h : DeadIn s s') {fuel : Nat} {k : Skipped}
    (hk : skipSpaces fuel s' = .ok k) : DeadIn s k.s ∧ k.n = 0 := by
  cases fuel with
  | zero => cases hk
  | succ f => rw [skipSpaces, skipChars_notgood h.1] at hk; cases hk; exact ⟨h, rfl⟩

theorem protoPart_dead {s s' : In} (h : DeadIn s s') {fuel : Nat} {ch : Byte} {size n : Nat} {mem : List Byte} {g : Got}
    (hg : protoPart fuel ch size s' mem n = .ok g) : DeadIn s g.s ∧ g.n = n := by
  unfold protoPart at hg
  dsimp only at hg
  have h1 : DeadIn s (if n = sub64 size 1 then s'.setFail else s') := by
    split
    · exact setFail_dead h
    · exact h
  generalize (if n = sub64 size 1 then s'.setFail else s') = s1 at h1 hg
  rw [if_neg (by simp [h1.1])] at hg
  cases hg
  exact ⟨h1, rfl⟩

theorem protoHead_dead {s : In} {g : Got} (h : DeadIn s g.s) {s1 : In} (hp : protoHead g = .ok s1) : DeadIn s s1 := by
  unfold protoHead at hp
  split at hp
  · cases hp; exact setBad_dead h
  · split at hp
    · cases hp
    · cases hp
      unfold In.setBadIf
      split
      · exact setBad_dead h
      · exact h

theorem protocol_dead {s s' : In} (h : DeadIn s s') {fuel : Nat} {size : Nat} {mem : List Byte} {g : Got}
    (hg : getProtocolBase fuel s' mem size = .ok g) : DeadIn s g.s ∧ g.n = 0 := by
  unfold getProtocolBase at hg
  obtain ⟨g1, a1, hg⟩ := bind_ok hg
  obtain ⟨s1, a2, hg⟩ := bind_ok hg
  obtain ⟨g3, a3, hg⟩ := bind_ok hg
  obtain ⟨g4, a4, hg⟩ := bind_ok hg
  obtain ⟨k, a5, hg⟩ := bind_ok hg
  cases hg
  have h1 := getChars_dead h a1
  have h2 := protoHead_dead h1.1 a2
  have h3 := protoPart_dead h2 a3
  have h4 := protoPart_dead h3.1 a4
  have h5 := skipSpaces_dead h4.1 a5
  exact ⟨h5.1, by dsimp only; rw [h4.2, h3.2, h1.2]⟩

theorem hvInner_dead {s s' : In} (h : DeadIn s s') {fuel size f : Nat} {mem : List Byte} {r : Hv}
    (hr : hvInner fuel size f s' mem 0 = .ok r) : DeadIn s r.s ∧ r.n = 0 := by
  cases f with
  | zero => cases hr
  | succ f =>
    rw [hvInner] at hr
    obtain ⟨k, a1, hr⟩ := bind_ok hr
    have h1 := skipSpaces_dead h a1
    obtain ⟨v, a2, hr⟩ := bind_ok hr
    rw [hvSpace, if_neg (by omega)] at a2
    cases a2
    rw [if_neg (by simp)] at hr
    obtain ⟨g, a3, hr⟩ := bind_ok hr
    have h3 := getChars_dead h1.1 a3
    rw [if_neg (by simp [h3.2])] at hr
    cases hr
    exact ⟨h3.1, by dsimp only; rw [h3.2]⟩

/-- C13.  Once the stream is not good a reader call consumes nothing, reports nothing read, and the
stream stays not good. -/
theorem rcall_dead (k : RKind) (st : Rd) (mem : List Byte) (size fuel : Nat) (r : RdRes)
    (hg : st.s.good = false) (hr : rcall fuel st mem size k = .ok r) :
    r.st.s.good = false ∧ r.st.s.rest = st.s.rest ∧ (r.thrown = false → r.st.gcount = 0) := by
  have h : DeadIn st.s st.s := ⟨hg, rfl⟩
  by_cases hn : st.next = k.item
  swap
  · rw [rcall_out_of_order k st mem size fuel hn] at hr
    cases hr; exact ⟨hg, rfl, by simp⟩
  suffices hs : DeadIn st.s r.st.s ∧ r.st.gcount = 0 from ⟨hs.1.1, hs.1.2, fun _ => hs.2⟩
  cases k with
  | method =>
    simp only [rcall, getMethod, RKind.item] at hn hr
    rw [if_neg (by simp [hn])] at hr
    obtain ⟨g, a1, hr⟩ := bind_ok hr
    obtain ⟨k, a2, hr⟩ := bind_ok hr
    cases hr
    have h1 := getChars_dead h a1
    exact ⟨(skipSpaces_dead h1.1 a2).1, h1.2⟩
  | resource =>
    simp only [rcall, getResource, RKind.item] at hn hr
    rw [if_neg (by simp [hn])] at hr
    obtain ⟨g, a1, hr⟩ := bind_ok hr
    obtain ⟨m, _, hr⟩ := bind_ok hr
    obtain ⟨k, a2, hr⟩ := bind_ok hr
    cases hr
    have h1 := getChars_dead h a1
    exact ⟨(skipSpaces_dead h1.1 a2).1, h1.2⟩
  | requestProtocol =>
    simp only [rcall, getRequestProtocol, RKind.item] at hn hr
    rw [if_neg (by simp [hn])] at hr
    obtain ⟨g, a1, hr⟩ := bind_ok hr
    cases hr
    have h1 := protocol_dead h a1
    exact ⟨skipCrlf_dead h1.1, h1.2⟩
  | responseProtocol =>
    simp only [rcall, getResponseProtocol, RKind.item] at hn hr
    rw [if_neg (by simp [hn])] at hr
    obtain ⟨g, a1, hr⟩ := bind_ok hr
    cases hr
    exact protocol_dead h a1
  | statusCode =>
    simp only [rcall, getStatusCode, RKind.item] at hn hr
    rw [if_neg (by simp [hn])] at hr
    obtain ⟨g, a1, hr⟩ := bind_ok hr
    obtain ⟨k, a2, hr⟩ := bind_ok hr
    cases hr
    have h1 := getChars_dead h a1
    exact ⟨(skipSpaces_dead h1.1 a2).1, h1.2⟩
  | reasonPhrase =>
    simp only [rcall, getReasonPhrase, RKind.item] at hn hr
    rw [if_neg (by simp [hn])] at hr
    obtain ⟨g, a1, hr⟩ := bind_ok hr
    obtain ⟨k, a2, hr⟩ := bind_ok hr
    cases hr
    have h1 := getChars_dead h a1
    exact ⟨skipCrlf_dead (skipSpaces_dead h1.1 a2).1, h1.2⟩
  | headerName =>
    simp only [rcall, getHeaderName, RKind.item] at hn hr
    rw [if_neg (by simp [hn])] at hr
    obtain ⟨g, a1, hr⟩ := bind_ok hr
    obtain ⟨k, a2, hr⟩ := bind_ok hr
    have h1 := getChars_dead h a1
    rw [if_pos h1.2] at hr
    cases hr
    exact ⟨skipCrlf_dead (skipSpaces_dead h1.1 a2).1, h1.2⟩
  | headerValue =>
    simp only [rcall, getHeaderValue, RKind.item] at hn hr
    rw [if_neg (by simp [hn])] at hr
    obtain ⟨v, a1, hr⟩ := bind_ok hr
    have h1 : DeadIn st.s v.s ∧ v.n = 0 := by
      cases fuel with
      | zero => cases a1
      | succ f =>
        rw [hvOuter] at a1
        obtain ⟨w, b1, a1⟩ := bind_ok a1
        have h1 := hvInner_dead h b1
        split at a1
        · cases a1; exact h1
        · have h2 := skipCrlf_dead h1.1
          rw [if_neg (by simp [h2.1])] at a1
          cases a1
          exact ⟨h2, h1.2⟩
    split at hr
    · cases hr; exact h1
    · obtain ⟨k, a2, hr⟩ := bind_ok hr
      cases hr
      exact ⟨(skipSpaces_dead h1.1 a2).1, h1.2⟩
  | body =>
    simp only [rcall, getBody, RKind.item] at hn hr
    rw [if_neg (by simp [hn])] at hr
    obtain ⟨g, a1, hr⟩ := bind_ok hr
    cases fuel with
    | zero => cases a1
    | succ f =>
      rw [getBytesLoop, if_neg (by simp [hg])] at a1
      cases a1; cases hr
      exact ⟨h, rfl⟩

/-! ### Sequences of reader calls -/

/-- A reader call with its buffer and size. -/
structure RCall where
  kind : RKind
  mem : List Byte
  size : Nat

/-- Make calls, catching `std::logic_error`; the final state and the kinds of the calls accepted. -/
def rrun (fuel : Nat) : Rd → List RCall → Res (Rd × List RKind)
  | st, [] => .ok (st, [])
  | st, c :: cs =>
    (rcall fuel st c.mem c.size c.kind).bind fun r =>
    (rrun fuel r.st cs).bind fun x => .ok (x.1, if r.thrown then x.2 else c.kind :: x.2)

/-- Headers: a name and one value, or several attempts at the value. -/
inductive RPairs : List RKind → Prop
  | nil : RPairs []
  | snoc {ks : List RKind} (n : Nat) : RPairs ks →
      RPairs (ks ++ .headerName :: List.replicate (n + 1) .headerValue)

/-- After the start line: headers, then possibly a header in progress, or the empty header name that ends
them and bodies. -/
def RRest (ks : List RKind) : Prop :=
  ∃ hs n, RPairs hs ∧ (ks = hs ∨ ks = hs ++ .headerName :: List.replicate n .headerValue ∨
    ks = hs ++ .headerName :: List.replicate n .body)

/-- The order of reading a message with this start line; possibly unfinished. -/
def ROrder (start : List RKind) (ks : List RKind) : Prop :=
  ks <+: start ∨ ∃ x, ks = start ++ x ∧ RRest x

def RRestAt (x : List RKind) : Item → Prop
  | .headerName => RPairs x
  | .headerValue => ∃ hs n, RPairs hs ∧ x = hs ++ .headerName :: List.replicate n .headerValue
  | .body => ∃ hs n, RPairs hs ∧ x = hs ++ .headerName :: List.replicate n .body
  | _ => False

theorem RRestAt.rest {x : List RKind} {i : Item} (h : RRestAt x i) : RRest x := by
  cases i with
  | headerName => exact ⟨x, 0, h, Or.inl rfl⟩
  | headerValue => obtain ⟨hs, n, h1, h2⟩ := h; exact ⟨hs, n, h1, Or.inr (Or.inl h2)⟩
  | body => obtain ⟨hs, n, h1, h2⟩ := h; exact ⟨hs, n, h1, Or.inr (Or.inr h2)⟩
  | _ => exact absurd h (by simp [RRestAt])

theorem RRestAt.step {x : List RKind} (k : RKind) (h : RRestAt x k.item) (i : Item) (hi : k.After i) :
    RRestAt (x ++ [k]) i := by
  cases k with
  | headerName =>
    rcases hi with rfl | rfl
    · exact ⟨x, 0, h, rfl⟩
    · exact ⟨x, 0, h, rfl⟩
  | headerValue =>
    obtain ⟨hs, n, h1, rfl⟩ := h
    rcases hi with rfl | rfl
    · have := RPairs.snoc n h1
      rw [List.replicate_succ'] at this
      simpa [RRestAt] using this
    · refine ⟨hs, n + 1, h1, ?_⟩
      rw [List.replicate_succ']; simp
  | body =>
    obtain ⟨hs, n, h1, rfl⟩ := h
    cases hi
    refine ⟨hs, n + 1, h1, ?_⟩
    rw [List.replicate_succ']; simp
  | _ => exact absurd h (by simp [RRestAt, RKind.item])

theorem rrun_invariant (fuel : Nat) (Inv : List RKind → Item → Prop) (ok : RKind → Prop)
    (hstep : ∀ acc k i, Inv acc k.item → ok k → k.After i → Inv (acc ++ [k]) i)
    (cs : List RCall) (hcs : ∀ c ∈ cs, ok c.kind) (st : Rd) (acc : List RKind) (h : Inv acc st.next)
    (x : Rd × List RKind) (hx : rrun fuel st cs = .ok x) : Inv (acc ++ x.2) x.1.next := by
  induction cs generalizing st acc x with
  | nil => cases hx; simpa using h
  | cons c cs ih =>
    have hcs' : ∀ c ∈ cs, ok c.kind := fun d hd => hcs d (by simp [hd])
    rw [rrun] at hx
    obtain ⟨r, a1, hx⟩ := bind_ok hx
    obtain ⟨y, a2, hx⟩ := bind_ok hx
    cases hx
    by_cases hn : st.next = c.kind.item
    · obtain ⟨h1, h2, _⟩ := rcall_in_order _ _ _ _ _ _ hn a1
      have := ih hcs' r.st (acc ++ [c.kind]) (hstep acc c.kind r.st.next (hn ▸ h) (hcs c (by simp)) h2) y a2
      simpa [h1] using this
    · rw [rcall_out_of_order _ _ _ _ _ hn] at a1
      cases a1
      have := ih hcs' st acc h y a2
      simpa using this

/-- Calls a request reader / a response reader has. -/
def RKind.ofRequest (k : RKind) : Prop := k ≠ .responseProtocol ∧ k ≠ .statusCode ∧ k ≠ .reasonPhrase
def RKind.ofResponse (k : RKind) : Prop := k ≠ .method ∧ k ≠ .resource ∧ k ≠ .requestProtocol

/-- C13, request reader.  Whatever calls are made on whatever input, the calls that have any effect are
in the order of a request. -/
theorem request_reads_in_order (fuel : Nat) (s : In) (cs : List RCall) (hcs : ∀ c ∈ cs, c.kind.ofRequest)
    (x : Rd × List RKind) (hx : rrun fuel ⟨s, .method, 0⟩ cs = .ok x) :
    ROrder [.method, .resource, .requestProtocol] x.2 := by
  have := rrun_invariant fuel
    (fun acc i => (acc = [] ∧ i = .method) ∨ (acc = [.method] ∧ i = .resource) ∨
      (acc = [.method, .resource] ∧ i = .protocol) ∨
      ∃ y, acc = [.method, .resource, .requestProtocol] ++ y ∧ RRestAt y i) RKind.ofRequest
    (by
      intro acc k i h hq hi
      rcases h with ⟨rfl, h⟩ | ⟨rfl, h⟩ | ⟨rfl, h⟩ | ⟨y, rfl, h⟩
      · cases k <;> simp_all [RKind.item, RKind.After, RKind.ofRequest]
      · cases k <;> simp_all [RKind.item, RKind.After, RKind.ofRequest]
      · cases k <;> simp_all [RKind.item, RKind.After, RKind.ofRequest, RRestAt, RPairs.nil]
      · exact Or.inr (Or.inr (Or.inr ⟨y ++ [k], by simp, h.step k i hi⟩)))
    cs hcs ⟨s, .method, 0⟩ [] (Or.inl ⟨rfl, rfl⟩) x hx
  rw [List.nil_append] at this
  rcases this with ⟨h, _⟩ | ⟨h, _⟩ | ⟨h, _⟩ | ⟨y, h, h'⟩
  · rw [h]; exact Or.inl (by simp)
  · rw [h]; exact Or.inl ⟨[.resource, .requestProtocol], rfl⟩
  · rw [h]; exact Or.inl ⟨[.requestProtocol], rfl⟩
  · exact Or.inr ⟨y, h, h'.rest⟩

/-- C13, response reader. -/
theorem response_reads_in_order (fuel : Nat) (s : In) (cs : List RCall) (hcs : ∀ c ∈ cs, c.kind.ofResponse)
    (x : Rd × List RKind) (hx : rrun fuel ⟨s, .protocol, 0⟩ cs = .ok x) :
    ROrder [.responseProtocol, .statusCode, .reasonPhrase] x.2 := by
  have := rrun_invariant fuel
    (fun acc i => (acc = [] ∧ i = .protocol) ∨ (acc = [.responseProtocol] ∧ i = .statusCode) ∨
      (acc = [.responseProtocol, .statusCode] ∧ i = .reasonPhrase) ∨
      ∃ y, acc = [.responseProtocol, .statusCode, .reasonPhrase] ++ y ∧ RRestAt y i) RKind.ofResponse
    (by
      intro acc k i h hq hi
      rcases h with ⟨rfl, h⟩ | ⟨rfl, h⟩ | ⟨rfl, h⟩ | ⟨y, rfl, h⟩
      · cases k <;> simp_all [RKind.item, RKind.After, RKind.ofResponse]
      · cases k <;> simp_all [RKind.item, RKind.After, RKind.ofResponse]
      · cases k <;> simp_all [RKind.item, RKind.After, RKind.ofResponse, RRestAt, RPairs.nil]
      · exact Or.inr (Or.inr (Or.inr ⟨y ++ [k], by simp, h.step k i hi⟩)))
    cs hcs ⟨s, .protocol, 0⟩ [] (Or.inl ⟨rfl, rfl⟩) x hx
  rw [List.nil_append] at this
  rcases this with ⟨h, _⟩ | ⟨h, _⟩ | ⟨h, _⟩ | ⟨y, h, h'⟩
  · rw [h]; exact Or.inl (by simp)
  · rw [h]; exact Or.inl ⟨[.statusCode, .reasonPhrase], rfl⟩
  · rw [h]; exact Or.inl ⟨[.reasonPhrase], rfl⟩
  · exact Or.inr ⟨y, h, h'.rest⟩

/-- C14, sequences: any number of calls, each with a buffer that is large enough for its kind, always
return. -/
theorem rrun_returns (fuel : Nat) (cs : List RCall) (st : Rd)
    (hcs : ∀ c ∈ cs, c.kind.minSize ≤ c.size ∧ c.size < 2 ^ 64 ∧ c.size ≤ c.mem.length)
    (hf : st.s.rest.length + 2 < fuel) : ∃ x, rrun fuel st cs = .ok x := by
  induction cs generalizing st with
  | nil => exact ⟨_, rfl⟩
  | cons c cs ih =>
    obtain ⟨h1, h2, h3⟩ := hcs c (by simp)
    have key : ∀ st : Rd, st.s.meas + 1 < fuel → ∀ cs : List RCall,
        (∀ c ∈ cs, c.kind.minSize ≤ c.size ∧ c.size < 2 ^ 64 ∧ c.size ≤ c.mem.length) →
        ∃ x, rrun fuel st cs = .ok x := by
      intro st hst cs
      induction cs generalizing st with
      | nil => intro _; exact ⟨_, rfl⟩
      | cons c cs ih =>
        intro hcs
        obtain ⟨h1, h2, h3⟩ := hcs c (by simp)
        have : st.s.rest.length ≤ st.s.meas := by unfold In.meas; omega
        obtain ⟨r, a, _, b⟩ := reader_safe_partial c.kind st c.mem c.size h1 h2 h3 fuel (by omega)
        obtain ⟨x, hx⟩ := ih r.st (by omega) (fun d hd => hcs d (by simp [hd]))
        exact ⟨_, by rw [rrun, a, Res.ok_bind, hx, Res.ok_bind]⟩
    have : st.s.meas ≤ st.s.rest.length + 1 := by unfold In.meas; split <;> omega
    exact key st (by omega) (c :: cs) hcs

/-! ## C16 -/

/-- C16 in full: the count reported is the number of bytes delivered, and the buffer holds them. -/
def BodyExact : Prop :=
  ∀ (b mem : List Byte) (size fuel : Nat), size ≤ mem.length → b.length + 2 < fuel →
    ∃ r, getBody fuel ⟨{ rest := b }, .body, 0⟩ mem size = .ok r ∧
      r.st.gcount = min size b.length ∧ r.mem = b.take size ++ mem.drop (min size b.length)

/-- C16 does not hold at an early end: one byte 0xFF that was never sent is stored and counted. -/
theorem body_exact_violated : ¬ BodyExact := by
  intro h
  obtain ⟨r, h1, h2, _⟩ := h [65] [1, 2, 3] 3 4 (by decide) (by decide)
  have : getBody 4 ⟨{ rest := [65] }, .body, 0⟩ [1, 2, 3] 3 =
      .ok ⟨⟨{ rest := [], eof := true, fail := true }, .body, 2⟩, [65, 255, 3], false⟩ := by decide
  rw [this] at h1
  cases h1
  revert h2; decide

/-- C16, what the code does instead, for every body, every size and every early end: when enough bytes
come exactly those are stored and counted; when the input ends early, the bytes that came are stored
followed by one byte 0xFF, which is counted too, and the stream is not good (so a caller that also looks at the
stream can subtract one). -/
theorem body_exact_partial (b mem : List Byte) (size fuel : Nat) (hm : size ≤ mem.length) (hf : b.length + 2 < fuel) (g : Nat) :
    (size ≤ b.length → getBody fuel ⟨{ rest := b }, .body, g⟩ mem size =
      .ok ⟨⟨{ rest := b.drop size }, .body, size⟩, b.take size ++ mem.drop size, false⟩) ∧
    (b.length < size → getBody fuel ⟨{ rest := b }, .body, g⟩ mem size =
      .ok ⟨⟨{ rest := [], eof := true, fail := true }, .body, b.length + 1⟩,
        b ++ 255 :: mem.drop (b.length + 1), false⟩) := by
  have key : ∀ (b u : List Byte) (fuel : Nat), b.length + 2 < fuel → u.length ≤ size →
      (size ≤ u.length + b.length → getBytesLoop size fuel (In.ofList b) (putMem mem 0 u) u.length =
        .ok ⟨In.ofList (b.drop (size - u.length)), putMem mem 0 (u ++ b.take (size - u.length)), size⟩) ∧
      (u.length + b.length < size → getBytesLoop size fuel (In.ofList b) (putMem mem 0 u) u.length =
        .ok ⟨{ rest := [], eof := true, fail := true }, putMem mem 0 (u ++ b ++ [255]), u.length + b.length + 1⟩) := by
    intro b
    induction b with
    | nil =>
      intro u fuel hf hu
      obtain ⟨f, rfl⟩ : ∃ f, fuel = f + 2 := ⟨fuel - 2, by omega⟩
      constructor
      · intro h
        simp only [List.length_nil, Nat.add_zero] at h
        have hus : u.length = size := by omega
        rw [getBytesLoop, if_neg (by omega)]
        simp [hus]
      · intro h
        simp only [List.length_nil, Nat.add_zero] at h
        rw [getBytesLoop, if_pos ⟨rfl, h⟩]
        have := wr_putMem (mem := mem) (off := 0) (w := u) (c := (In.ofList []).getV) (by omega)
        rw [Nat.zero_add] at this
        rw [this, Res.ok_bind, getBytesLoop, if_neg (by simp [In.getS, In.ofList, In.good])]
        simp [In.getS, In.ofList, In.good, In.getV, In.peekV]
    | cons c b ih =>
      intro u fuel hf hu
      obtain ⟨f, rfl⟩ : ∃ f, fuel = f + 1 := ⟨fuel - 1, by omega⟩
      simp only [List.length_cons] at hf ⊢
      by_cases hus : u.length = size
      · refine ⟨fun _ => ?_, fun h => by omega⟩
        rw [getBytesLoop, if_neg (by omega)]
        simp [hus]
      · have hlt : u.length < size := by omega
        have hw := wr_putMem (mem := mem) (off := 0) (w := u) (c := c) (by omega)
        rw [Nat.zero_add] at hw
        obtain ⟨i1, i2⟩ := ih (u ++ [c]) f (by omega) (by simp; omega)
        simp only [List.length_append, List.length_cons, List.length_nil, Nat.zero_add] at i1 i2
        constructor
        · intro h
          rw [getBytesLoop, if_pos ⟨rfl, hlt⟩, In.getV_cons, In.getS_cons, hw, Res.ok_bind, i1 (by omega)]
          obtain ⟨d, hd⟩ : ∃ d, size - u.length = d + 1 := ⟨size - u.length - 1, by omega⟩
          have hd' : size - (u.length + 1) = d := by omega
          rw [hd, hd']; simp
        · intro h
          rw [getBytesLoop, if_pos ⟨rfl, hlt⟩, In.getV_cons, In.getS_cons, hw, Res.ok_bind, i2 (by omega)]
          simp; omega
  obtain ⟨k1, k2⟩ := key b [] fuel hf (by simp)
  simp only [List.length_nil, Nat.zero_add, putMem_nil, List.nil_append, Nat.sub_zero] at k1 k2
  constructor
  · intro h
    rw [getBody, if_neg (by simp)]
    have := k1 h
    simp only [In.ofList] at this
    rw [this, Res.ok_bind]
    simp [putMem, Nat.min_eq_left h]
  · intro h
    rw [getBody, if_neg (by simp)]
    have := k2 h
    simp only [In.ofList] at this
    rw [this, Res.ok_bind]
    simp [putMem]

example : getBody 9 ⟨{ rest := [65, 66, 67] }, .body, 0⟩ [1, 2, 3] 2 =
    .ok ⟨⟨{ rest := [67] }, .body, 2⟩, [65, 66, 3], false⟩ := by decide

end Abc.Http

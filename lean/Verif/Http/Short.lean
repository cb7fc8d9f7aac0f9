import Verif.Http.Safety

/-!
# Reading HTTP goes forward

Whatever the input is, a reader call only takes characters from the front of it; and a header value that is shorter than
the buffer never leads to the early return of `get_header_value` (after which the next call throws).
-/

namespace Abc.Http

open Abc.Ascii Abc.Stream

/-- What is left after a call is an end of what was there before. -/
def Forward {α : Type} (f : α → In) (s : In) (x : Res α) : Prop := ∀ a, x = .ok a → (f a).rest <:+ s.rest

theorem Forward.ok {α : Type} {f : α → In} {s : In} {a : α} (h : (f a).rest <:+ s.rest) : Forward f s (.ok a) := by
  intro b hb
  cases hb
  exact h

theorem Forward.bind {α β : Type} {f : α → In} {g : β → In} {s : In} {x : Res α} {k : α → Res β} (h1 : Forward f s x)
    (h2 : ∀ a, (f a).rest <:+ s.rest → Forward g s (k a)) : Forward g s (x.bind k) := by
  intro b hb
  cases x with
  | ub => cases hb
  | running => cases hb
  | ok a => exact h2 a (h1 a rfl) b hb

theorem Forward.mono {α : Type} {f : α → In} {s s' : In} {x : Res α} (h : Forward f s x) (hs : s.rest <:+ s'.rest) : Forward f s' x :=
  fun a ha => (h a ha).trans hs

/-- Writing a byte does not touch the stream. -/
theorem Forward.wr {β : Type} {g : β → In} {s : In} {mem : List Byte} {i : Nat} {c : Byte} {k : List Byte → Res β}
    (h : ∀ m, Forward g s (k m)) : Forward g s ((wr mem i c).bind k) := by
  unfold Stream.wr
  split
  · exact h _
  · intro b hb; cases hb

theorem getS_rest (s : In) : s.getS.rest <:+ s.rest := by
  unfold In.getS
  split
  · split
    · exact List.suffix_refl _
    · rename_i h
      rw [h]
      exact List.suffix_cons _ _
  · exact List.suffix_refl _

theorem peekCharS_rest (valid : Byte → Bool) (s : In) : (s.peekCharS valid).rest = s.rest := by
  have : s.peekS.rest = s.rest := by
    unfold In.peekS
    split
    · split <;> rfl
    · rfl
  unfold In.peekCharS
  split
  · exact this
  · exact this

theorem peekCharS_suffix (valid : Byte → Bool) (s : In) : (s.peekCharS valid).rest <:+ s.rest := by
  rw [peekCharS_rest]
  exact List.suffix_refl _

theorem getCharS_rest (valid : Byte → Bool) (s : In) : (s.getCharS valid).rest <:+ s.rest := by
  unfold In.getCharS
  split
  · rw [← peekCharS_rest valid s]
    exact getS_rest _
  · exact peekCharS_suffix valid s

theorem skipCrlf_rest (s : In) : (skipCrlf s).rest <:+ s.rest := by
  have h1 := getCharS_rest isAscii s
  have h2 := (getCharS_rest isAscii (s.getCharS isAscii)).trans h1
  unfold skipCrlf
  split
  · exact h1
  · split
    · exact h2
    · exact h2

theorem getCharsLoop_forward {valid pred : Byte → Bool} {off size : Nat} (fuel : Nat) : ∀ (s : In) (mem : List Byte) (n : Nat),
    Forward Got.s s (getCharsLoop valid pred off size fuel s mem n) := by
  induction fuel with
  | zero => intro s mem n a ha; cases ha
  | succ f ih =>
    intro s mem n
    have hend : ∀ s' : In, s'.rest <:+ s.rest → Forward Got.s s (getCharsEnd off s' mem n) :=
      fun s' h => Forward.wr fun m => Forward.ok h
    rw [getCharsLoop]
    split
    · split
      · split
        · exact hend _ (peekCharS_suffix valid s)
        · exact Forward.wr fun m => (ih _ _ _).mono ((getS_rest _).trans (peekCharS_suffix valid s))
      · exact hend _ (peekCharS_suffix valid s)
    · exact hend _ (List.suffix_refl _)

theorem skipCharsLoop_forward {valid pred : Byte → Bool} (fuel : Nat) : ∀ (s : In) (n : Nat),
    Forward Skipped.s s (skipCharsLoop valid pred fuel s n) := by
  induction fuel with
  | zero => intro s n a ha; cases ha
  | succ f ih =>
    intro s n
    rw [skipCharsLoop]
    split
    · split
      · exact (ih _ _).mono ((getS_rest _).trans (peekCharS_suffix valid s))
      · exact Forward.ok (peekCharS_suffix valid s)
    · exact Forward.ok (List.suffix_refl _)

theorem skipSpaces_forward (fuel : Nat) {s s' : In} (h : s.rest <:+ s'.rest) : Forward Skipped.s s' (skipSpaces fuel s) :=
  (skipCharsLoop_forward fuel s 0).mono h

theorem getChars_forward {valid pred : Byte → Bool} (fuel : Nat) {s s' : In} (h : s.rest <:+ s'.rest) (mem : List Byte) (off size : Nat) :
    Forward Got.s s' (getChars fuel valid pred s mem off size) :=
  (getCharsLoop_forward fuel s mem 0).mono h

theorem protoPart_forward (fuel : Nat) (ch : Byte) (size : Nat) {s s' : In} (h : s.rest <:+ s'.rest) (mem : List Byte) (n : Nat) :
    Forward Got.s s' (protoPart fuel ch size s mem n) := by
  have key : ∀ t : In, t.rest = s.rest → Forward Got.s s' (if t.good then
      if t.peekCharV isAscii = ch then
        (Stream.wr mem n ch).bind fun mem =>
          if (t.getCharS isAscii).good then
            (getChars fuel isAscii isDigit (t.getCharS isAscii) mem (n + 1) (sub64 size (n + 1))).bind
              fun g => .ok ⟨g.s, g.mem, n + 1 + g.n⟩
          else .ok ⟨t.getCharS isAscii, mem, n + 1⟩
      else .ok ⟨(t.getCharS isAscii).setBad, mem, n⟩
    else .ok ⟨t, mem, n⟩) := by
    intro t ht
    have ht' : (t.getCharS isAscii).rest <:+ s'.rest := (getCharS_rest isAscii t).trans (by rw [ht]; exact h)
    split
    · split
      · refine Forward.wr fun m => ?_
        split
        · exact (getChars_forward fuel ht' _ _ _).bind fun g hg => Forward.ok hg
        · exact Forward.ok ht'
      · exact Forward.ok ht'
    · exact Forward.ok (by dsimp only; rw [ht]; exact h)
  unfold protoPart
  dsimp only
  split
  · exact key _ rfl
  · exact key _ rfl

theorem protoHead_forward {g : Got} {s : In} (h : g.s.rest <:+ s.rest) : Forward id s (protoHead g) := by
  unfold protoHead
  split
  · exact Forward.ok h
  · split
    · intro a ha; cases ha
    · refine Forward.ok ?_
      unfold In.setBadIf
      split <;> exact h

theorem getProtocolBase_forward (fuel : Nat) (s : In) (mem : List Byte) (size : Nat) : Forward Got.s s (getProtocolBase fuel s mem size) :=
  (getChars_forward fuel (List.suffix_refl _) _ _ _).bind fun _ h1 =>
  (protoHead_forward h1).bind fun _ h2 =>
  (protoPart_forward fuel 47 size h2 _ _).bind fun _ h3 =>
  (protoPart_forward fuel 46 size h3 _ _).bind fun _ h4 =>
  (skipSpaces_forward fuel h4).bind fun _ h5 => Forward.ok h5

theorem getMethod_forward (fuel : Nat) (st : Rd) (mem : List Byte) (size : Nat) :
    Forward (fun r : RdRes => r.st.s) st.s (getMethod fuel st mem size) := by
  unfold getMethod
  split
  · exact Forward.ok (List.suffix_refl _)
  · exact (getChars_forward fuel (List.suffix_refl _) _ _ _).bind fun _ h1 => (skipSpaces_forward fuel h1).bind fun _ h2 => Forward.ok h2

theorem getResource_forward (fuel : Nat) (st : Rd) (mem : List Byte) (size : Nat) :
    Forward (fun r : RdRes => r.st.s) st.s (getResource fuel st mem size) := by
  unfold getResource
  split
  · exact Forward.ok (List.suffix_refl _)
  · exact (getChars_forward fuel (List.suffix_refl _) _ _ _).bind fun _ h1 => Forward.wr fun _ =>
      (skipSpaces_forward fuel h1).bind fun _ h2 => Forward.ok h2

theorem getRequestProtocol_forward (fuel : Nat) (st : Rd) (mem : List Byte) (size : Nat) :
    Forward (fun r : RdRes => r.st.s) st.s (getRequestProtocol fuel st mem size) := by
  unfold getRequestProtocol
  split
  · exact Forward.ok (List.suffix_refl _)
  · exact (getProtocolBase_forward fuel st.s mem size).bind fun _ h1 => Forward.ok ((skipCrlf_rest _).trans h1)

theorem getHeaderName_forward (fuel : Nat) (st : Rd) (mem : List Byte) (size : Nat) :
    Forward (fun r : RdRes => r.st.s) st.s (getHeaderName fuel st mem size) := by
  unfold getHeaderName
  split
  · exact Forward.ok (List.suffix_refl _)
  · refine (getChars_forward fuel (List.suffix_refl _) _ _ _).bind fun g h1 => (skipSpaces_forward fuel h1).bind fun k h2 => ?_
    split
    · exact Forward.ok ((skipCrlf_rest _).trans h2)
    · have h3 := (getCharS_rest isAscii k.s).trans h2
      have : ∀ s : In, s.rest <:+ st.s.rest →
          Forward (fun r : RdRes => r.st.s) st.s ((skipSpaces fuel s).bind fun k2 => .ok ⟨⟨k2.s, .headerValue, g.n⟩, g.mem, false⟩) :=
        fun s hs => (skipSpaces_forward fuel hs).bind fun _ h => Forward.ok h
      refine this _ ?_
      split
      · split
        · exact h3
        · exact h3
      · exact h2

/-! ## Header values -/

/-- With no more input than there is room, there is no early return. -/
theorem hvSpace_short {size n B : Nat} {k : Skipped} {mem : List Byte} {h : Hv} (hs : 1 ≤ size) (hs2 : size < 2 ^ 64)
    (hx : hvSpace size k mem n = .ok h) (hn : n + k.n + k.s.meas ≤ B) (hB : B ≤ size) :
    h.s.rest = k.s.rest ∧ h.n + h.s.meas ≤ B ∧ h.ret = false := by
  have hp := In.peekCharS_meas isAscii k.s
  unfold hvSpace at hx
  rw [sub64_eq hs hs2] at hx
  split at hx
  · split at hx
    · rename_i hnk ha
      have hm : 1 ≤ k.s.meas := by
        cases hg : k.s.good with
        | false =>
          have hv : k.s.peekV = 255 := by simp [In.peekV, hg]
          rw [In.peekCharV, hv] at ha
          exact absurd ha (by decide)
        | true => simp [In.meas, hg]
      split at hx
      · omega
      · unfold wr at hx
        split at hx
        · cases hx
          exact ⟨peekCharS_rest _ _, by dsimp only; omega, rfl⟩
        · cases hx
    · cases hx
      exact ⟨peekCharS_rest _ _, by dsimp only; omega, rfl⟩
  · cases hx
    exact ⟨rfl, by dsimp only; omega, rfl⟩

theorem getCharsLoop_count {valid pred : Byte → Bool} {off size : Nat} (fuel : Nat) : ∀ (s : In) (mem : List Byte) (n : Nat) (g : Got),
    getCharsLoop valid pred off size fuel s mem n = .ok g → g.n + g.s.meas ≤ n + s.meas := by
  induction fuel with
  | zero => intro s mem n g h; cases h
  | succ f ih =>
    intro s mem n g h
    have hp := In.peekCharS_meas valid s
    have hend : ∀ s' : In, s'.meas ≤ s.meas → getCharsEnd off s' mem n = .ok g → g.n + g.s.meas ≤ n + s.meas := by
      intro s' hs hg
      unfold getCharsEnd wr at hg
      split at hg
      · cases hg
        dsimp only
        omega
      · cases hg
    rw [getCharsLoop] at h
    split at h
    · rename_i hg
      split at h
      · split at h
        · exact hend _ (Nat.le_trans (setFail_meas _) hp) h
        · unfold wr at h
          split at h
          · rw [Res.ok_bind] at h
            have := ih _ _ _ _ h
            have := In.peek_get_meas valid hg
            omega
          · cases h
      · exact hend _ hp h
    · exact hend _ (Nat.le_refl _) h

theorem skipCharsLoop_count {valid pred : Byte → Bool} (fuel : Nat) : ∀ (s : In) (n : Nat) (k : Skipped),
    skipCharsLoop valid pred fuel s n = .ok k → k.n + k.s.meas ≤ n + s.meas := by
  induction fuel with
  | zero => intro s n k h; cases h
  | succ f ih =>
    intro s n k h
    have hp := In.peekCharS_meas valid s
    rw [skipCharsLoop] at h
    split at h
    · rename_i hg
      split at h
      · have := ih _ _ _ h
        have := In.peek_get_meas valid hg
        omega
      · cases h
        dsimp only
        omega
    · cases h
      dsimp only
      omega

theorem hvInner_short {fuel size B : Nat} (hs : 1 ≤ size) (hs2 : size < 2 ^ 64) (hB : B ≤ size) (f : Nat) : ∀ (s : In) (mem : List Byte) (n : Nat) (h : Hv),
    hvInner fuel size f s mem n = .ok h → n + s.meas ≤ B → h.s.rest <:+ s.rest ∧ h.n + h.s.meas ≤ B ∧ h.ret = false := by
  induction f with
  | zero => intro s mem n h hx; cases hx
  | succ f ih =>
    intro s mem n h hx hn
    rw [hvInner] at hx
    cases hk : skipSpaces fuel s with
    | ub => rw [hk] at hx; cases hx
    | running => rw [hk] at hx; cases hx
    | ok k =>
      rw [hk, Res.ok_bind] at hx
      have hk1 := skipCharsLoop_count fuel s 0 k hk
      have hk2 := skipCharsLoop_forward fuel s 0 k hk
      cases hv : hvSpace size k mem n with
      | ub => rw [hv] at hx; cases hx
      | running => rw [hv] at hx; cases hx
      | ok v =>
        rw [hv, Res.ok_bind] at hx
        obtain ⟨a, b, c⟩ := hvSpace_short hs hs2 hv (by omega) hB
        rw [if_neg (by simp [c])] at hx
        cases hg : getChars fuel isAscii isAbcprint v.s v.mem v.n (sub64 size v.n) with
        | ub => rw [hg] at hx; cases hx
        | running => rw [hg] at hx; cases hx
        | ok g =>
          rw [hg, Res.ok_bind] at hx
          have hg1 := getCharsLoop_count fuel v.s v.mem 0 g hg
          have hg2 : g.s.rest <:+ s.rest := (getCharsLoop_forward fuel v.s v.mem 0 g hg).trans (by rw [a]; exact hk2)
          split at hx
          · obtain ⟨d, e⟩ := ih g.s g.mem (v.n + g.n) h hx (by omega)
            exact ⟨d.trans hg2, e⟩
          · cases hx
            exact ⟨hg2, by dsimp only; omega, rfl⟩

theorem hvOuter_short {fuel size B : Nat} (hs : 1 ≤ size) (hs2 : size < 2 ^ 64) (hB : B ≤ size) (f : Nat) : ∀ (s : In) (mem : List Byte) (n : Nat) (h : Hv),
    hvOuter fuel size f s mem n = .ok h → n + s.meas ≤ B → h.s.rest <:+ s.rest ∧ h.n + h.s.meas ≤ B ∧ h.ret = false := by
  induction f with
  | zero => intro s mem n h hx; cases hx
  | succ f ih =>
    intro s mem n h hx hn
    rw [hvOuter] at hx
    cases hv : hvInner fuel size fuel s mem n with
    | ub => rw [hv] at hx; cases hx
    | running => rw [hv] at hx; cases hx
    | ok v =>
      rw [hv, Res.ok_bind] at hx
      obtain ⟨a, b, c⟩ := hvInner_short hs hs2 hB fuel s mem n v hv hn
      rw [if_neg (by simp [c])] at hx
      have hk := skipCrlf_meas v.s
      have hk2 := (skipCrlf_rest v.s).trans a
      have hp := In.peekCharS_meas isAscii (skipCrlf v.s)
      have hp2 := (peekCharS_suffix isAscii (skipCrlf v.s)).trans hk2
      split at hx
      · split at hx
        · obtain ⟨d, e⟩ := ih _ _ _ _ hx (by omega)
          exact ⟨d.trans hp2, e⟩
        · cases hx
          exact ⟨hp2, by dsimp only; omega, rfl⟩
      · cases hx
        exact ⟨hk2, by dsimp only; omega, rfl⟩

/-- The characters of a header name are taken. -/
theorem getHeaderName_count {fuel size : Nat} {st : Rd} {mem : List Byte} {r : RdRes} (hx : getHeaderName fuel st mem size = .ok r)
    (hn : st.next = .headerName) : r.st.gcount + r.st.s.meas ≤ st.s.meas := by
  unfold getHeaderName at hx
  rw [if_neg (by simp [hn])] at hx
  cases hg : getChars fuel isAscii httpIsToken st.s mem 0 size with
  | ub => rw [hg] at hx; cases hx
  | running => rw [hg] at hx; cases hx
  | ok g =>
    rw [hg, Res.ok_bind] at hx
    have h1 := getCharsLoop_count fuel st.s mem 0 g hg
    cases hk : skipSpaces fuel g.s with
    | ub => rw [hk] at hx; cases hx
    | running => rw [hk] at hx; cases hx
    | ok k =>
      rw [hk, Res.ok_bind] at hx
      have h2 := skipCharsLoop_count fuel g.s 0 k hk
      split at hx
      · cases hx
        have := skipCrlf_meas k.s
        dsimp only
        omega
      · have key : ∀ s : In, s.meas ≤ k.s.meas →
            (skipSpaces fuel s).bind (fun k2 => .ok (⟨⟨k2.s, .headerValue, g.n⟩, g.mem, false⟩ : RdRes)) = .ok r → r.st.gcount + r.st.s.meas ≤ st.s.meas := by
          intro s hs hx
          cases hk2 : skipSpaces fuel s with
          | ub => rw [hk2] at hx; cases hx
          | running => rw [hk2] at hx; cases hx
          | ok k2 =>
            rw [hk2, Res.ok_bind] at hx
            have h3 := skipCharsLoop_count fuel s 0 k2 hk2
            cases hx
            dsimp only
            omega
        refine key _ ?_ hx
        have h3 := In.getCharS_meas isAscii k.s
        split
        · split
          · exact Nat.le_trans (setBad_meas _) h3
          · exact h3
        · exact Nat.le_refl _

/-- A header value of which less is left than the buffer has room for: the next thing to read is a name. -/
theorem getHeaderValue_short {fuel size : Nat} {st : Rd} {mem : List Byte} {r : RdRes} (hs : 1 ≤ size) (hs2 : size < 2 ^ 64)
    (hx : getHeaderValue fuel st mem size = .ok r) (hn : st.next = .headerValue) (hl : st.s.meas ≤ size) :
    r.st.s.rest <:+ st.s.rest ∧ r.st.next = .headerName ∧ r.thrown = false := by
  unfold getHeaderValue at hx
  rw [if_neg (by simp [hn])] at hx
  cases hv : hvOuter fuel size fuel st.s mem 0 with
  | ub => rw [hv] at hx; cases hx
  | running => rw [hv] at hx; cases hx
  | ok v =>
    rw [hv, Res.ok_bind] at hx
    obtain ⟨a, b, c⟩ := hvOuter_short hs hs2 (Nat.le_refl _) fuel st.s mem 0 v hv (by omega)
    rw [if_neg (by simp [c])] at hx
    cases hk : skipSpaces fuel v.s with
    | ub => rw [hk] at hx; cases hx
    | running => rw [hk] at hx; cases hx
    | ok k =>
      rw [hk, Res.ok_bind] at hx
      cases hx
      exact ⟨(skipCharsLoop_forward fuel v.s 0 k hk).trans a, rfl, rfl⟩

end Abc.Http

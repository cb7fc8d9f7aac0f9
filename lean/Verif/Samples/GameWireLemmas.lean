import Verif.Samples.GameWire

/-!
# The tic-tac-toe server at the level of bytes: lemmas
-/

namespace Abc.GameWire

open Abc.Ascii Abc.Stream Abc.Http Abc.Wire Abc.Json
open Abc.Endpoint (Config str mem)
open Abc.GameServer (Id PType Server Req Resp)
open Abc.TicTacToe (Pid Move)

/-! ## Resources -/

theorem scanLit_append (l s : List Byte) : scanLit l (l ++ s) = some s := by
  induction l with
  | nil => rfl
  | cons c l ih => simp [scanLit, ih]

theorem digit_facts : ∀ c : Byte, digit c = true → isDigit c = true ∧ isBlankC c = false ∧ c ≠ 43 ∧ c ≠ 45 ∧ printable c = true :=
  forall_byte (by decide +kernel)

/-- What follows a number does not continue it. -/
def Stops (s : List Byte) : Prop := ∀ c ∈ s.head?, isDigit c = false

theorem takeWhile_stop {d s : List Byte} (hd : ∀ c ∈ d, isDigit c = true) (hs : Stops s) : (d ++ s).takeWhile isDigit = d := by
  induction d with
  | nil =>
    cases s with
    | nil => rfl
    | cons c s => simp [hs c (by simp)]
  | cons c d ih => simp [hd c (by simp), ih (fun x hx => hd x (by simp [hx]))]

theorem scanU_dec (n : Nat) (hn : n < 2 ^ 32) (s : List Byte) (hs : Stops s) : scanU (dec n ++ s) = some (n, s) := by
  obtain ⟨h1, h2, h3, _⟩ := dec_spec n
  have hd : ∀ c ∈ dec n, isDigit c = true := fun c hc => (digit_facts c (h2 c hc)).1
  have e1 : (dec n ++ s).dropWhile isBlankC = dec n ++ s := by
    cases h : dec n with
    | nil => exact absurd h h1
    | cons c l => simp [(digit_facts c (h2 c (by rw [h]; simp))).2.1]
  have e2 : scanSign (dec n ++ s) = (false, dec n ++ s) := by
    cases h : dec n with
    | nil => exact absurd h h1
    | cons c l =>
      have := digit_facts c (h2 c (by rw [h]; simp))
      simp [scanSign, this.2.2.1, this.2.2.2.1]
  unfold scanU
  simp only [e1, e2, takeWhile_stop hd hs, h1, if_false, h3, Bool.false_eq_true, List.drop_left]
  rw [if_neg (by omega), Nat.mod_eq_of_lt hn]

/-- A minus sign is accepted: `-n` is read as `2 ^ 32 - n`. -/
theorem scanU_minus (n : Nat) (h0 : 0 < n) (hn : n < 2 ^ 32) (s : List Byte) (hs : Stops s) : scanU (45 :: (dec n ++ s)) = some (2 ^ 32 - n, s) := by
  obtain ⟨h1, h2, h3, _⟩ := dec_spec n
  have hd : ∀ c ∈ dec n, isDigit c = true := fun c hc => (digit_facts c (h2 c hc)).1
  have e1 : (45 :: (dec n ++ s)).dropWhile isBlankC = 45 :: (dec n ++ s) := by
    rw [List.dropWhile_cons]; rfl
  have e2 : scanSign (45 :: (dec n ++ s)) = (true, dec n ++ s) := by simp [scanSign]
  unfold scanU
  simp only [e1, e2, takeWhile_stop hd hs, h1, if_false, h3, if_true, List.drop_left]
  rw [if_neg (by omega)]
  congr 2
  omega

example : scanU (str "-1/players/0") = some (4294967295, str "/players/0") := by decide +kernel

/-- `%6s` reads one character more than the word `moves` has, so longer words are told from it. -/
theorem scanS6_five {w v : List Byte} (hw : ∀ c ∈ w, isBlankC c = false) (hv : v.length = 5) : scanS6 w = some v ↔ w = v := by
  have h1 : w.dropWhile isBlankC = w := by
    cases w with
    | nil => rfl
    | cons c l => rw [List.dropWhile_cons, hw c (by simp)]; rfl
  have h2 : w.takeWhile (fun c => !isBlankC c) = w := by
    clear h1 hv
    induction w with
    | nil => rfl
    | cons c l ih => rw [List.takeWhile_cons, hw c (by simp), ih (fun x hx => hw x (by simp [hx]))]; rfl
  unfold scanS6
  simp only [h1, h2]
  constructor
  · intro h
    split at h
    · cases h
    · have h := Option.some.inj h
      have hl := congrArg List.length h
      rw [List.length_take, hv] at hl
      rwa [List.take_of_length_le (by omega)] at h
  · rintro rfl
    rw [List.take_of_length_le (by omega), if_neg (by intro e; rw [e] at hv; cases hv)]

example : scanS6 (str "movesx") ≠ some (str "moves") ∧ scanS6 (str "moves") = some (str "moves") := by decide +kernel

theorem scanPlayers_ok (g p : Nat) (hg : g < 2 ^ 32) (hp : p < 2 ^ 32) (s : List Byte) (hs : Stops s) :
    scanPlayers (str "/" ++ (dec g ++ (str "/players/" ++ (dec p ++ s)))) = some (g, p, s) := by
  unfold scanPlayers
  have hst : Stops (str "/players/" ++ (dec p ++ s)) := by
    intro c hc
    have : c = 47 := by simpa [show str "/players/" = 47 :: str "players/" by decide, eq_comm] using hc
    subst this; decide
  simp only [scanLit_append, Option.bind_eq_bind, Option.bind_some, scanU_dec g hg _ hst, scanU_dec p hp s hs]

theorem route_claim (g i : Nat) (hg : g < 2 ^ 32) (hi : i < 2 ^ 32) :
    route (str "/" ++ (dec g ++ (str "/players/" ++ dec i))) = .claim g i := by
  have h := scanPlayers_ok g i hg hi [] (by simp [Stops])
  rw [List.append_nil] at h
  have h2 : scanMove (str "/" ++ (dec g ++ (str "/players/" ++ dec i))) = none := by
    unfold scanMove
    rw [h]
    rfl
  unfold route
  rw [h2, h]

theorem route_move (g p : Nat) (hg : g < 2 ^ 32) (hp : p < 2 ^ 32) :
    route (str "/" ++ (dec g ++ (str "/players/" ++ (dec p ++ str "/moves")))) = .move g p (str "moves") := by
  have h := scanPlayers_ok g p hg hp (str "/moves") (by unfold Stops; decide)
  have h2 : scanMove (str "/" ++ (dec g ++ (str "/players/" ++ (dec p ++ str "/moves")))) = some (g, p, str "moves") := by
    unfold scanMove
    rw [h]
    simp only [Option.bind_eq_bind, Option.bind_some]
    rw [show scanLit (str "/") (str "/moves") = some (str "moves") by decide]
    simp only [Option.bind_some]
    rw [show scanS6 (str "moves") = some (str "moves") by decide]
    rfl
  unfold route
  rw [h2]

theorem route_moves (g n : Nat) (hg : g < 2 ^ 32) (hn : n < 2 ^ 32) :
    route (str "/" ++ (dec g ++ (str "/moves?since=" ++ dec n))) = .moves g n := by
  have e : str "/moves?since=" = 47 :: 109 :: str "oves?since=" := by decide
  have hst : Stops (str "/moves?since=" ++ dec n) := by
    intro c hc
    have : c = 47 := by simpa [e, eq_comm] using hc
    subst this; decide
  have h1 : scanPlayers (str "/" ++ (dec g ++ (str "/moves?since=" ++ dec n))) = none := by
    unfold scanPlayers
    simp only [scanLit_append, Option.bind_eq_bind, Option.bind_some, scanU_dec g hg _ hst]
    rw [e, show str "/players/" = 47 :: 112 :: str "layers/" by decide]
    rfl
  have h2 : scanMove (str "/" ++ (dec g ++ (str "/moves?since=" ++ dec n))) = none := by
    unfold scanMove
    rw [h1]
    rfl
  have h3 : scanMoves (str "/" ++ (dec g ++ (str "/moves?since=" ++ dec n))) = some (g, n) := by
    unfold scanMoves
    have hn' := scanU_dec n hn [] (by simp [Stops])
    rw [List.append_nil] at hn'
    simp only [scanLit_append, Option.bind_eq_bind, Option.bind_some, scanU_dec g hg _ hst, hn']
  unfold route
  rw [h2, h1, h3]

/-! ## Comparing texts in buffers -/

theorem zero_mem_of_cstr {m w : List Byte} (h : cstr m = w) (hl : w.length < m.length) : (0 : Byte) ∈ m := by
  subst h
  induction m with
  | nil => simp at hl
  | cons c m ih =>
    by_cases hc : c = 0
    · simp [hc]
    · have e : cstr (c :: m) = c :: cstr m := by
        unfold cstr; rw [List.takeWhile_cons, if_pos (by simpa using hc)]
      rw [e] at hl
      simp only [List.length_cons] at hl
      exact List.mem_cons_of_mem _ (ih (by omega))

theorem cstr_str (b : List Byte) (hb : (0 : Byte) ∉ b) : cstr (b ++ [0]) = b := by
  induction b with
  | nil => rfl
  | cons c b ih =>
    have hc : c ≠ 0 := fun h => hb (by simp [h])
    have := ih (fun h => hb (by simp [h]))
    unfold cstr at this ⊢
    rw [List.cons_append, List.takeWhile_cons, if_pos (by simpa using hc), this]

theorem fold_lower : fold false = lower := by funext c; simp [fold]

theorem buf_equal_i {m w b : List Byte} (hm : cstr m = w) (hl : w.length < m.length) (hs : m.length < sizeMax)
    (hb : (0 : Byte) ∉ b) (hbl : b.length < sizeMax) :
    areEqualI (some m) (mem b) = some (decide (w.map lower = b.map lower)) := by
  unfold areEqualI mem
  rw [are_equal_correct false _ _ _ (zero_mem_of_cstr hm hl) (by simp), hm, cstr_str b hb, fold_lower,
    List.take_of_length_le (by omega), List.take_of_length_le (by omega)]

theorem buf_starts_i {m w b : List Byte} (hm : cstr m = w) (hl : w.length < m.length) (hb : (0 : Byte) ∉ b) :
    areEqualIN (some m) (mem b) b.length = some (decide ((w.take b.length).map lower = b.map lower)) := by
  unfold areEqualIN mem
  rw [are_equal_correct false _ _ _ (zero_mem_of_cstr hm hl) (by simp), hm, cstr_str b hb, fold_lower,
    List.take_length]

/-! ## Headers -/

/-- The header that tells the type of the body. -/
def IsType (h : Header) : Prop := h.1.map lower = str "content-type"

instance (h : Header) : Decidable (IsType h) := by unfold IsType; infer_instance

/-- Its value starts with `application/json`, ignoring case. -/
def SaysJson (h : Header) : Prop := ((norm false false h.2).take 16).map lower = str "application/json"

instance (h : Header) : Decidable (SaysJson h) := by unfold SaysJson; infer_instance

/-- The headers the server can hold. -/
def HeadersFit (hs : List Header) : Prop := ∀ h ∈ hs, HeaderOk h ∧ h.1.length ≤ 1024 ∧ (norm false false h.2).length ≤ 1024

theorem norm_head (g : Bool) (v : List Byte) (z : Byte) (hz : z ∈ (norm false g v).head?) : blank z = false := by
  induction v generalizing g with
  | nil => simp [norm] at hz
  | cons a v ih =>
    rw [norm] at hz
    split at hz
    · exact ih true hz
    · simp at hz; subst hz; simpa using ‹¬ blank a = true›

/-- The first character of a value and what follows it. -/
theorem value_next {h : Header} (hh : HeaderOk h) (w : List Byte) (hw : ∃ d y, w = d :: y ∧ isAscii d = true ∧ blank d = false) :
    ∃ d y, norm false false h.2 ++ w = d :: y ∧ isAscii d = true ∧ blank d = false := by
  cases hnv : norm false false h.2 with
  | nil => exact hw
  | cons d y =>
    have hd := norm_chars false false h.2 hh.value d (by rw [hnv]; simp)
    exact ⟨d, _, rfl, ascii_of_value hd, norm_head false h.2 d (by rw [hnv]; simp)⟩

/-- Name and value of the first of some headers. -/
theorem header_step {fuel : Nat} {h : Header} {hs : List Header} (hf : HeadersFit (h :: hs)) (r hm : List Byte)
    (hl : hm.length = 1025) (g : Nat) (hfu : (headersText (h :: hs)).length + 4 ≤ fuel) :
    ∃ m1 m2,
      getHeaderName fuel ⟨In.ofList (headersText (h :: hs) ++ (crlf ++ r)), .headerName, g⟩ hm 1025 =
        .ok ⟨⟨In.ofList (norm false false h.2 ++ (crlf ++ (headersText hs ++ (crlf ++ r)))), .headerValue, h.1.length⟩, m1, false⟩ ∧
      Http.Holds hm m1 h.1 ∧
      getHeaderValue fuel ⟨In.ofList (norm false false h.2 ++ (crlf ++ (headersText hs ++ (crlf ++ r)))), .headerValue, h.1.length⟩ m1 1025 =
        .ok ⟨⟨In.ofList (headersText hs ++ (crlf ++ r)), .headerName, (norm false false h.2).length⟩, m2, false⟩ ∧
      Http.Holds m1 m2 (norm false false h.2) := by
  obtain ⟨hh, hn, hv⟩ := hf h (by simp)
  have hok : ∀ k ∈ hs, HeaderOk k := fun k hk => (hf k (by simp [hk])).1
  have hlen : (headersText (h :: hs)).length =
      h.1.length + 2 + (norm false false h.2).length + 2 + (headersText hs).length := by
    rw [headersText_cons]; simp [crlf]; omega
  obtain ⟨c, x, hcx, hca, hcb⟩ := headers_next hs hok r
  obtain ⟨d, y, hdy, hda, hdb⟩ := value_next hh (crlf ++ (c :: x)) ⟨13, 10 :: c :: x, rfl, by decide, by decide⟩
  obtain ⟨m1, h1, h3⟩ := getHeaderName_ok (fuel := fuel) h.1 hh.1 hh.2.1 d y hda hdb hm (by omega) (by omega) g (by omega)
  obtain ⟨m2, h4, h5⟩ := getHeaderValue_ok (fuel := fuel) (norm false false h.2) (norm_chars _ _ _ hh.value) c x hca hcb m1
    (by rw [norm_norm, h3.1]; omega) (by rw [h3.1]; omega) h.1.length (by omega)
  rw [norm_norm] at h4 h5
  rw [hl] at h1
  rw [h3.1, hl] at h4
  rw [← hdy, ← hcx] at h1
  rw [← hcx] at h4
  refine ⟨m1, m2, ?_, h3, h4, h5⟩
  rw [headersText_cons]
  simpa using h1

/-- What a list of headers says about the type of the body. -/
inductive Judged where
  | json | missing | wrong | twice

def judge : Bool → List Header → Judged
  | has, [] => if has then .json else .missing
  | has, h :: hs =>
    if IsType h then (if has then .twice else if SaysJson h then judge true hs else .wrong) else judge has hs

/-- The loop comes to that conclusion, and nothing has failed. -/
def Judged.Ends (r : List Byte) : Judged → Headers → Prop
  | .json, v => v = .json ⟨In.ofList r, .body, 0⟩
  | .missing, v => v = .missing
  | .wrong, v => ∃ st, v = .refused st "'application/json' is the only supported Content-Type." ∧ st.s.good = true
  | .twice, v => ∃ st, v = .refused st "The Content-Type header was supplied more than once." ∧ st.s.good = true

theorem headerLoop_judge {fuel : Nat} (hs : List Header) (hf : HeadersFit hs) (r : List Byte) (has : Bool) (hm : List Byte)
    (hl : hm.length = 1025) (g f : Nat) (hff : hs.length < f) (hfu : (headersText hs).length + 4 ≤ fuel) :
    ∃ v, headerLoop fuel f has ⟨In.ofList (headersText hs ++ (crlf ++ r)), .headerName, g⟩ hm = .ok v ∧ (judge has hs).Ends r v := by
  induction hs generalizing has hm g f with
  | nil =>
    obtain ⟨f, rfl⟩ : ∃ k, f = k + 1 := ⟨f - 1, by simp at hff; omega⟩
    obtain ⟨m1, h1, _⟩ := getHeaderName_end (fuel := fuel) r hm (by omega) (by omega) g (by omega)
    rw [hl] at h1
    rw [headerLoop, headersText, List.map_nil, List.flatten_nil, List.nil_append, h1, Res.ok_bind]
    cases has <;> exact ⟨_, rfl, rfl⟩
  | cons h hs ih =>
    obtain ⟨f, rfl⟩ : ∃ k, f = k + 1 := ⟨f - 1, by simp at hff; omega⟩
    obtain ⟨m1, m2, h1, h2, h3, h4⟩ := header_step hf r hm hl g hfu
    obtain ⟨hh, hn, hv⟩ := hf h (by simp)
    have hne : h.1.length ≠ 0 := fun h0 => hh.1 (List.length_eq_zero_iff.1 h0)
    have hlen : (headersText (h :: hs)).length =
        h.1.length + 2 + (norm false false h.2).length + 2 + (headersText hs).length := by
      rw [headersText_cons]; simp [crlf]; omega
    have e1 : areEqualI (some m1) (mem (str "Content-Type")) = some (decide (IsType h)) := by
      rw [buf_equal_i h2.2 (by rw [h2.1]; omega) (by rw [h2.1, hl]; decide) (by decide) (by decide)]
      rfl
    have e2 : areEqualIN (some m2) (mem jsonType) jsonType.length = some (decide (SaysJson h)) := by
      rw [buf_starts_i h4.2 (by rw [h4.1, h2.1]; omega) (by decide)]
      rfl
    have hl2 : m2.length = 1025 := by rw [h4.1, h2.1, hl]
    have ih' := fun has => ih (fun k hk => hf k (by simp [hk])) has m2 hl2 (norm false false h.2).length f
      (by simp at hff; omega) (by omega)
    rw [headerLoop, h1, Res.ok_bind]
    dsimp only
    rw [if_neg (by simp), if_neg hne, e1]
    by_cases ht : IsType h
    · simp only [ht, decide_true]
      cases has with
      | true => exact ⟨_, rfl, by simp only [judge, ht, if_true]; exact ⟨_, rfl, rfl⟩⟩
      | false =>
        rw [if_neg (by simp), h3, Res.ok_bind]
        dsimp only
        rw [if_neg (by simp), e2]
        by_cases hj : SaysJson h
        · simp only [hj, decide_true, judge, ht, if_true, Bool.false_eq_true, if_false]
          exact ih' true
        · simp only [hj, decide_false, judge, ht, if_true, Bool.false_eq_true, if_false]
          exact ⟨_, rfl, _, rfl, rfl⟩
    · simp only [ht, decide_false]
      rw [h3, Res.ok_bind]
      dsimp only
      rw [if_neg (by simp)]
      simp only [judge, ht, if_false]
      exact ih' has

/-! ## Bodies of requests -/

open Spec in
theorem getTok_ok {c : Ctx} (hat : ∀ x, (c.atof x).length = 8) {p q : Pos} {t : Token} (h : ReadsTok 64 p t q) {buf : List Byte}
    (hb : buf.length = 1041) (ht : tokChars t ≤ 1032) (hf : p.r.length + 27 ≤ c.fuel) (g : Nat) :
    ∃ n b, getTok c ⟨In.ofList p.r, p.e, p.ls, g⟩ buf = .ok ⟨⟨In.ofList q.r, q.e, q.ls, n⟩, tokItem t, some b⟩ ∧
      b.length = 1041 ∧ Payload c.atof t b := by
  obtain ⟨n, b, h1, h2, _⟩ := h.2 c.atof hat g c.fuel 1041 (some buf) hf ⟨hb, by omega, by omega, by omega⟩
  cases b with
  | none => exact absurd h2 (by simp [Json.Holds])
  | some b =>
    simp only [Json.Holds] at h2
    exact ⟨n, b, h1, by rw [h2.1, hb], h2.2.2⟩

open Spec in
/-- The name of a member, and what follows it. -/
theorem member_ok {name : Str} {w1 w2 trail lead : List Byte} {v : Value} {rest : Mems} (hv : (Mems.cons name w1 w2 v trail lead rest).Ok)
    {lead0 : List Byte} (hl : Ws lead0) (r : List Byte) :
    ∃ tail lead', Ws lead' ∧ Tail [true] tail (lead' ++ (rest.text ++ 125 :: r)) ∧
      ReadsTok 64 ⟨lead0 ++ ((Mems.cons name w1 w2 v trail lead rest).text ++ 125 :: r), true, [true]⟩ (.prop name.val)
        ⟨w2 ++ (v.text ++ (tail ++ (lead' ++ (rest.text ++ 125 :: r)))), false, [true]⟩ := by
  simp only [Mems.Ok] at hv
  have hprop := fun r' => step_prop (max := 64) (ls := []) (r := r') hv.1 hl hv.2.1
  cases rest with
  | nil =>
    refine ⟨trail, [], ws_nil, .inr ⟨by simp, trail, hv.2.2.2.2.1, .inr ⟨rfl, r, rfl⟩⟩, ?_⟩
    have := hprop (w2 ++ (v.text ++ (trail ++ 125 :: r)))
    simpa [Mems.text, Mems.sep] using this
  | cons n' w1' w2' v' t' l' rest' =>
    refine ⟨trail ++ [44], lead, hv.2.2.2.2.2.1, .inr ⟨by simp, trail, hv.2.2.2.2.1, .inl rfl⟩, ?_⟩
    have := hprop (w2 ++ (v.text ++ (trail ++ 44 :: (lead ++ ((Mems.cons n' w1' w2' v' t' l' rest').text ++ 125 :: r)))))
    rw [Mems.text, Mems.sep]
    simpa using this

open Spec in
/-- The text of a string token in the buffer. -/
theorem value_text {atof : List Byte → List Byte} {b w : List Byte} (h0 : (0 : Byte) ∉ w)
    (hp : Payload atof (.str w) b) : cstr (b.drop 8) = w ∧ (0 : Byte) ∈ b.drop 8 := by
  obtain ⟨v, hv⟩ := hp
  rw [hv]
  refine ⟨?_, by simp⟩
  clear hv
  induction w with
  | nil => simp [cstr]
  | cons c w ih =>
    have hc : c ≠ 0 := fun h => h0 (by simp [h])
    have := ih (fun h => h0 (by simp [h]))
    unfold cstr at this ⊢
    rw [List.cons_append, List.takeWhile_cons, if_pos (by simpa using hc), this]

open Spec in
theorem name_equal {atof : List Byte → List Byte} {b w k : List Byte} (h0 : (0 : Byte) ∉ w) (hw : w.length < sizeMax) (hk : (0 : Byte) ∉ k)
    (hkl : k.length < sizeMax) (hp : Payload atof (.prop w) b) :
    areEqualC (some (b.drop 8)) (mem k) = some (decide (w = k)) := by
  obtain ⟨h1, h2⟩ := value_text (atof := atof) h0 (by exact hp)
  unfold areEqualC mem
  rw [are_equal_correct true _ _ _ h2 (by simp), h1, cstr_str k hk, List.take_of_length_le (by omega), List.take_of_length_le (by omega)]
  have : fold true = id := by funext c; simp [fold]
  rw [this, List.map_id, List.map_id]

open Spec in
/-- What the members of an object say about the players: of several members `players` the last counts, other
members are of no importance. -/
inductive Picks : Mems → Option (List Byte × List Byte) → Option (List Byte × List Byte) → Prop
  | nil {got} : Picks .nil got got
  | other {name w1 w2 v trail lead rest got r} : name.val ≠ str "players" → (0 : Byte) ∉ name.val → name.val.length ≤ 1024 →
      v.depth ≤ 63 → Picks rest got r → Picks (.cons name w1 w2 v trail lead rest) got r
  | players {name : Str} {w1 w2 trail lead w tx lx ty ly : List Byte} {x y : Str} {rest got r} : name.val = str "players" →
      x.val.length ≤ 64 → (0 : Byte) ∉ x.val → y.val.length ≤ 64 → (0 : Byte) ∉ y.val →
      Picks rest (some (x.val, y.val)) r →
      Picks (.cons name w1 w2 (.arr w (.cons (.atom (.str x)) tx lx (.cons (.atom (.str y)) ty ly .nil))) trail lead rest) got r

open Spec in
theorem array_ok {c : Ctx} (hat : ∀ x, (c.atof x).length = 8) {w tx lx ty ly : List Byte} {x y : Str}
    (hv : (Value.arr w (.cons (.atom (.str x)) tx lx (.cons (.atom (.str y)) ty ly .nil))).Ok) {w2 tail R : List Byte} (hw2 : Ws w2)
    (ht : Tail [true] tail R) (hx : x.val.length ≤ 64) (hx0 : (0 : Byte) ∉ x.val) (hy : y.val.length ≤ 64) (hy0 : (0 : Byte) ∉ y.val)
    {buf : List Byte} (hb : buf.length = 1041)
    (hf : (w2 ++ ((Value.arr w (.cons (.atom (.str x)) tx lx (.cons (.atom (.str y)) ty ly .nil))).text ++ (tail ++ R))).length + 27 ≤ c.fuel)
    (g : Nat) {α : Type} (k : Tok → List Byte → List Byte → Res (Option α)) :
    ∃ n b, b.length = 1041 ∧
      ((getTok c ⟨In.ofList (w2 ++ ((Value.arr w (.cons (.atom (.str x)) tx lx (.cons (.atom (.str y)) ty ly .nil))).text ++ (tail ++ R))), false, [true], g⟩ buf).bind fun a =>
        if a.item ≠ .beginArray then .ok none else
        (getTok c a.st (Tok.block a)).bind fun x =>
        if x.item ≠ .string then .ok none else
        (copy65 (Tok.value x)).bind fun px =>
        (getTok c x.st (Tok.block x)).bind fun y =>
        if y.item ≠ .string then .ok none else
        (copy65 (Tok.value y)).bind fun py =>
        (getTok c y.st (Tok.block y)).bind fun e =>
        if e.item ≠ .endArray then .ok none else k e px py) =
      k ⟨⟨In.ofList R, true, [true], n⟩, .endArray, some b⟩ x.val y.val := by
  simp only [Value.Ok, Elems.Ok, Atom.Ok] at hv
  obtain ⟨hw, hxo, htx, hlx, hyo, hty, hly, _⟩ := hv
  have e : w2 ++ ((Value.arr w (.cons (.atom (.str x)) tx lx (.cons (.atom (.str y)) ty ly .nil))).text ++ (tail ++ R)) =
      w2 ++ (91 :: (w ++ ((Atom.str x).text ++ ((tx ++ [44]) ++ (lx ++ ((Atom.str y).text ++ (ty ++ 93 :: (tail ++ R)))))))) := by
    simp [Value.text, Elems.text, Elems.sep]
  rw [e] at hf ⊢
  simp only [List.length_append, List.length_cons] at hf
  have s1 := step_begin (max := 64) (r := w ++ ((Atom.str x).text ++ ((tx ++ [44]) ++ (lx ++ ((Atom.str y).text ++ (ty ++ 93 :: (tail ++ R)))))))
    (e := false) (ls := [true]) false hw2 rfl (by simp)
  have s2 := step_atom (max := 64) (a := .str x) (lead := w) (tail := tx ++ [44]) (r := lx ++ ((Atom.str y).text ++ (ty ++ 93 :: (tail ++ R))))
    (e := false) (ls := [false, true]) hxo hw rfl (.inr ⟨by simp, tx, htx, .inl rfl⟩) (by simp)
  have s3 := step_atom (max := 64) (a := .str y) (lead := lx) (tail := ty) (r := 93 :: (tail ++ R))
    (e := false) (ls := [false, true]) hyo hlx rfl (.inr ⟨by simp, ty, hty, .inr ⟨rfl, _, rfl⟩⟩) (by simp)
  have s4 := step_endArray (max := 64) (lead := []) ws_nil ht
  rw [setExpect_arr] at s2 s3
  simp only [Bool.false_eq_true, if_false] at s1
  obtain ⟨n1, b1, g1, l1, p1⟩ := getTok_ok hat s1 hb (by simp [tokChars]) (by simp; omega) g
  obtain ⟨n2, b2, g2, l2, p2⟩ := getTok_ok hat s2 l1 (by simp [tokChars, Atom.tok]; omega) (by simp; omega) n1
  obtain ⟨n3, b3, g3, l3, p3⟩ := getTok_ok hat s3 l2 (by simp [tokChars, Atom.tok]; omega) (by simp; omega) n2
  obtain ⟨n4, b4, g4, l4, p4⟩ := getTok_ok hat s4 l3 (by simp [tokChars]) (by simp; omega) n3
  have c2 := value_text hx0 p2
  have c3 := value_text hy0 p3
  refine ⟨n4, b4, l4, ?_⟩
  rw [g1, Res.ok_bind]
  simp only [tokItem, ne_eq, not_true_eq_false, if_false, Tok.block, Option.getD_some]
  rw [g2, Res.ok_bind]
  simp only [tokItem, Atom.tok, not_true_eq_false, if_false, Tok.block, Tok.value, Option.getD_some]
  rw [copy65, if_pos ⟨c2.2, by rw [c2.1]; exact hx⟩, c2.1, Res.ok_bind, g3, Res.ok_bind]
  simp only [tokItem, Atom.tok, not_true_eq_false, if_false, Option.getD_some]
  rw [copy65, if_pos ⟨c3.2, by rw [c3.1]; exact hy⟩, c3.1, Res.ok_bind]
  rw [List.nil_append] at g4
  rw [g4, Res.ok_bind]
  simp only [tokItem, not_true_eq_false, if_false]
  rfl

open Spec in
theorem playersLoop_ok {c : Ctx} (hat : ∀ x, (c.atof x).length = 8) {ms : Mems} {got res : Option (List Byte × List Byte)}
    (h : Picks ms got res) (hv : ms.Ok) {lead : List Byte} (hl : Ws lead) (r : List Byte) {buf : List Byte} (hb : buf.length = 1041)
    (hf : (lead ++ (ms.text ++ 125 :: r)).length + 27 ≤ c.fuel) (g f : Nat) (hff : (lead ++ (ms.text ++ 125 :: r)).length < f) :
    playersLoop c f ⟨In.ofList (lead ++ (ms.text ++ 125 :: r)), true, [true], g⟩ buf got = .ok (some res) := by
  induction h generalizing lead buf g f with
  | nil =>
    obtain ⟨f, rfl⟩ : ∃ k, f = k + 1 := ⟨f - 1, by omega⟩
    have s1 := step_endObject (max := 64) (tail := []) (r := r) (ls := []) hl (.inl ⟨rfl, rfl⟩)
    simp only [Mems.text, List.nil_append] at hf hff ⊢
    obtain ⟨n1, b1, g1, _, _⟩ := getTok_ok hat s1 hb (by simp [tokChars]) (by simpa using hf) g
    rw [List.nil_append] at g1
    rw [playersLoop, g1, Res.ok_bind]
    simp [tokItem]
  | @other name w1 w2 v trail lead2 rest got r' hne h0 hlen hd hp ih =>
    obtain ⟨f, rfl⟩ : ∃ k, f = k + 1 := ⟨f - 1, by omega⟩
    obtain ⟨tail, lead', hl', ht, hs⟩ := member_ok hv hl r
    simp only [Mems.Ok] at hv
    obtain ⟨n1, b1, g1, l1, p1⟩ := getTok_ok hat hs hb (by simp [tokChars]; omega) hf g
    have hlt := hs.1
    have hlt2 := hlt
    simp only [List.length_append] at hlt2
    dsimp only at hlt hlt2 g1
    obtain ⟨k, k1, k2, k3, k4⟩ := C07_skip_partial (max := 64) (fuel := c.fuel) (g := n1) hv.2.2.2.1 (lead := w2) (tail := tail)
      (r := lead' ++ (rest.text ++ 125 :: r)) (e := false) (ls := [true]) hv.2.2.1 rfl ht (by simp) (by simp; omega) (by omega)
    rw [playersLoop, g1, Res.ok_bind]
    dsimp only
    rw [if_neg (by simp [tokItem]), if_neg (by simp [tokItem])]
    rw [Tok.value, Tok.block, Option.getD_some, name_equal h0 (by unfold sizeMax; omega) (by decide) (by decide) p1]
    simp only [hne, decide_false]
    rw [k1, Res.ok_bind]
    obtain ⟨⟨ks, ke, kl, kg⟩, ki, kb⟩ := k
    dsimp only at k2 k3 k4 ⊢
    subst k2 k3
    have : ke = true := by simpa [expectProperty, topObject] using k4
    subst this
    exact ih hv.2.2.2.2.2.2 hl' l1 (by simp only [List.length_append] at hf ⊢; omega) kg f
      (by simp only [List.length_append] at hff ⊢; omega)
  | @players name w1 w2 trail lead2 w tx lx ty ly x y rest got r' hn hx hx0 hy hy0 hp ih =>
    obtain ⟨f, rfl⟩ : ∃ k, f = k + 1 := ⟨f - 1, by omega⟩
    obtain ⟨tail, lead', hl', ht, hs⟩ := member_ok hv hl r
    simp only [Mems.Ok] at hv
    obtain ⟨n1, b1, g1, l1, p1⟩ := getTok_ok hat hs hb (by simp only [tokChars, hn]; decide) hf g
    have hlt := hs.1
    have hlt2 := hlt
    simp only [List.length_append] at hlt2
    dsimp only at hlt hlt2 g1
    obtain ⟨n2, b2, l2, h2⟩ := array_ok hat hv.2.2.2.1 hv.2.2.1 ht hx hx0 hy hy0 l1 (by omega) n1
      (fun e px py => playersLoop c f e.st (Tok.block e) (some (px, py)))
    rw [playersLoop, g1, Res.ok_bind]
    dsimp only
    rw [if_neg (by simp [tokItem]), if_neg (by simp [tokItem])]
    rw [Tok.value, Tok.block, Option.getD_some, hn] at *
    rw [name_equal (w := str "players") (by decide) (by decide) (by decide) (by decide) p1]
    simp only [decide_true]
    rw [h2]
    exact ih hv.2.2.2.2.2.2 hl' l2 (by simp only [List.length_append] at hf ⊢; omega) n2 f
      (by simp only [List.length_append] at hff ⊢; omega)

/-- The names of the player types. -/
def typeName : PType → List Byte
  | .external => str "external"
  | .slow => str "slow_engine"
  | .fast => str "fast_engine"

theorem fromText_name (t : PType) : fromText (typeName t) = some (some t) := by
  cases t <;> decide +kernel

/-- What a context provides. -/
structure CtxOk (c : Ctx) : Prop where
  room : 2048 ≤ c.room
  atof : ∀ x, (c.atof x).length = 8
  cell : ∀ m k, c.cell m = some k → k ≤ 2
  header : c.header.length = 1025
  token : c.token.length = 1041

open Spec in
theorem begin_ok {c : Ctx} (hc : CtxOk c) {lead w : List Byte} {ms : Mems} (hl : Ws lead) (r : List Byte)
    (hf : (lead ++ ((Value.obj w ms).text ++ r)).length + 27 ≤ c.fuel) :
    ∃ n b, b.length = 1041 ∧ getTok c { s := { rest := lead ++ ((Value.obj w ms).text ++ r) } } c.token =
      .ok ⟨⟨In.ofList (w ++ (ms.text ++ 125 :: r)), true, [true], n⟩, .beginObject, some b⟩ := by
  have s1 := step_begin (max := 64) (r := w ++ (ms.text ++ 125 :: r)) (e := false) (ls := []) true hl rfl (by simp)
  simp only [if_true] at s1
  have e : lead ++ ((Value.obj w ms).text ++ r) = lead ++ 123 :: (w ++ (ms.text ++ 125 :: r)) := by simp [Value.text]
  rw [e] at hf ⊢
  obtain ⟨n, b, g1, l1, _⟩ := getTok_ok hc.atof s1 hc.token (by simp [tokChars]) hf 0
  exact ⟨n, b, l1, g1⟩

open Spec in
theorem playersBody_ok {c : Ctx} (hc : CtxOk c) {lead w : List Byte} {ms : Mems} {tx to_ : PType} (hl : Ws lead)
    (hv : (Value.obj w ms).Ok) (hp : Picks ms none (some (typeName tx, typeName to_))) (r : List Byte)
    (hf : (lead ++ ((Value.obj w ms).text ++ r)).length + 27 ≤ c.fuel) :
    playersBody c (lead ++ ((Value.obj w ms).text ++ r)) = .ok (.ok (tx, to_)) := by
  obtain ⟨n, b, hb, h1⟩ := begin_ok hc hl r hf
  simp only [Value.Ok] at hv
  have e : (w ++ (ms.text ++ 125 :: r)).length + 1 ≤ (lead ++ ((Value.obj w ms).text ++ r)).length := by
    simp [Value.text]
  have h2 := playersLoop_ok hc.atof hp hv.2 hv.1 r hb (by omega) n c.fuel (by omega)
  unfold playersBody
  dsimp only
  rw [h1, Res.ok_bind]
  simp only [ne_eq, not_true_eq_false, if_false, Tok.block, Option.getD_some]
  rw [h2, Res.ok_bind]
  simp only [fromText_name]

open Spec in
theorem expectName_ok {c : Ctx} (hc : CtxOk c) {k : String} {name : Str} (hn : name.val = str k) (hk : (0 : Byte) ∉ str k)
    (hkl : (str k).length ≤ 1024) {p q : Pos} (hs : ReadsTok 64 p (.prop name.val) q) {b : List Byte} (hb : b.length = 1041)
    (hf : p.r.length + 27 ≤ c.fuel) (n : Nat) (it : Json.Item) :
    ∃ n' b' it', b'.length = 1041 ∧ expectName c (str k) ⟨⟨In.ofList p.r, p.e, p.ls, n⟩, it, some b⟩ =
      .ok (some ⟨⟨In.ofList q.r, q.e, q.ls, n'⟩, it', some b'⟩) := by
  obtain ⟨n', b', g1, l1, p1⟩ := getTok_ok hc.atof hs hb (by simp only [tokChars, hn]; omega) hf n
  refine ⟨n', b', .property, l1, ?_⟩
  unfold expectName
  simp only [Tok.block, Option.getD_some]
  rw [g1, Res.ok_bind]
  simp only [tokItem, ne_eq, not_true_eq_false, if_false, Tok.value, Tok.block, Option.getD_some]
  rw [hn] at p1
  rw [name_equal hk (by unfold sizeMax; omega) hk (by unfold sizeMax; omega) p1]
  simp

open Spec in
theorem expectCell_ok {c : Ctx} (hc : CtxOk c) {num : Num} {k : Nat} (hk : c.cell (c.atof num.text) = some k)
    {p q : Pos} (hs : ReadsTok 64 p (.num num.text) q) {b : List Byte} (hb : b.length = 1041)
    (hf : p.r.length + 27 ≤ c.fuel) (n : Nat) (it : Json.Item) :
    ∃ n' b' it', b'.length = 1041 ∧ expectCell c ⟨⟨In.ofList p.r, p.e, p.ls, n⟩, it, some b⟩ =
      .ok (some (⟨⟨In.ofList q.r, q.e, q.ls, n'⟩, it', some b'⟩, k)) := by
  obtain ⟨n', b', g1, l1, p1⟩ := getTok_ok hc.atof hs hb (by simp [tokChars]) hf n
  refine ⟨n', b', .number, l1, ?_⟩
  unfold expectCell
  simp only [Tok.block, Option.getD_some]
  rw [g1, Res.ok_bind]
  simp only [tokItem, ne_eq, not_true_eq_false, if_false, Tok.value, Tok.block, Option.getD_some]
  have p1' : (b'.drop 8).take 8 = c.atof num.text := p1
  rw [p1', hk]

open Spec in
/-- The members of a move: the row, the column, and whatever else. -/
inductive Cells (c : Ctx) : Mems → Nat → Nat → Prop
  | mk {n1 n2 : Str} {a1 a2 t1 l1 b1 b2 t2 l2 : List Byte} {x y : Num} {rest : Mems} {row col : Nat} :
      n1.val = str "row" → n2.val = str "col" → c.cell (c.atof x.text) = some row → c.cell (c.atof y.text) = some col →
      Cells c (.cons n1 a1 a2 (.atom (.num x)) t1 l1 (.cons n2 b1 b2 (.atom (.num y)) t2 l2 rest)) row col

open Spec in
theorem moveBody_ok {c : Ctx} (hc : CtxOk c) {lead w : List Byte} {ms : Mems} {row col : Nat} (hl : Ws lead)
    (hv : (Value.obj w ms).Ok) (hp : Cells c ms row col) (r : List Byte)
    (hf : (lead ++ ((Value.obj w ms).text ++ r)).length + 27 ≤ c.fuel) :
    moveBody c (lead ++ ((Value.obj w ms).text ++ r)) = .ok (some ⟨row, col⟩) := by
  obtain ⟨n, b, hb, h1⟩ := begin_ok hc hl r hf
  simp only [Value.Ok] at hv
  have e : (w ++ (ms.text ++ 125 :: r)).length + 1 ≤ (lead ++ ((Value.obj w ms).text ++ r)).length := by
    simp [Value.text]
  obtain ⟨e1, e2, e3, e4⟩ := hp
  rename_i n1 n2 a1 a2 t1 l1 b1 b2 t2 l2 x y rest
  obtain ⟨tail, lead', hl', ht, hs⟩ := member_ok hv.2 hv.1 r
  obtain ⟨hw, hm⟩ := hv
  simp only [Mems.Ok, Value.Ok, Atom.Ok] at hm
  have hm' : (Mems.cons n2 b1 b2 (.atom (.num y)) t2 l2 rest).Ok := by simp only [Mems.Ok, Value.Ok, Atom.Ok]; tauto
  obtain ⟨tail2, lead2, hl2, ht2, hs2⟩ := member_ok hm' hl' r
  have s1 := step_atom (max := 64) (a := .num x) (e := false) hm.2.2.2.1 hm.2.2.1 rfl ht (by simp)
  have s2 := step_atom (max := 64) (a := .num y) (e := false) hm.2.2.2.2.2.2.2.2.2.1 hm.2.2.2.2.2.2.2.2.1 rfl ht2 (by simp)
  have q1 := hs.1
  have q2 := s1.1
  have q3 := hs2.1
  simp only [Value.text, Atom.text] at q1 q2 q3
  obtain ⟨m1, c1, i1, k1, g1⟩ := expectName_ok hc e1 (by decide) (by decide) hs hb (by dsimp only; omega) n .beginObject
  obtain ⟨m2, c2, i2, k2, g2⟩ := expectCell_ok hc e3 s1 k1 (by simp only [Atom.text]; omega) m1 i1
  obtain ⟨m3, c3, i3, k3, g3⟩ := expectName_ok hc e2 (by decide) (by decide) hs2 k2 (by simp only [Value.text, Atom.text] at *; omega) m2 i2
  obtain ⟨m4, c4, i4, k4, g4⟩ := expectCell_ok hc e4 s2 k3 (by simp only [Value.text, Atom.text] at *; omega) m3 i3
  unfold moveBody
  rw [h1, Res.ok_bind]
  simp only [ne_eq, not_true_eq_false, if_false]
  rw [g1, Res.ok_bind]
  simp only [Value.text]
  rw [g2, Res.ok_bind]
  dsimp only
  rw [show setExpect [true] true = true from rfl, g3, Res.ok_bind]
  simp only [Value.text]
  rw [g4, Res.ok_bind]

end Abc.GameWire

/-!
# The password of the private key of a TLS server

`openssl_tcp_server_socket` keeps the password of the private key inside the object and tells OpenSSL where it
is. OpenSSL asks for it, through `pem_passwd_cb`, whenever it reads an encrypted file on behalf of the context.

Modelled: `/repo/src/openssl_socket.h` lines 289-334 (constructor), 337-356 (move constructor), 359-374
(destructor), 395-401 (`pem_passwd_cb`), and `/repo/src/i/openssl_socket.i.h` lines 190-197 (`max_password`,
`_pkey_file_password`).

Not modelled: the certificate, the sockets, the method and the logs; OpenSSL itself, but for what it asks of the
callback: it passes a buffer of its own, the size of that buffer, and the address registered with
`SSL_CTX_set_default_passwd_cb_userdata`, and takes the returned count of bytes from its buffer as the password.
-/

namespace Abc.Password

abbrev Byte := UInt8

/-- `max_password = size::_256`: `/repo/src/i/openssl_socket.i.h` line 192. -/
def maxPassword : Nat := 256

/-- The size of the buffer OpenSSL passes to the callback when it reads a PEM file (`PEM_BUFSIZE` of OpenSSL;
a constant of that library, not of `/repo`). -/
def pemBufsize : Nat := 1024

/-- `std::strlen` on memory that starts with the bytes given: the number of bytes before the first zero.
Simplification: the end of the list counts as a zero. -/
def strlen : List Byte → Nat
  | [] => 0
  | b :: s => if b = 0 then 0 else strlen s + 1

/-- `std::strncpy(dst, src, n)`: byte by byte up to the first zero of `src`, zeros from there on, `n` bytes in
all; the bytes of `dst` from `n` on stay. (Library function called by `/repo/src/openssl_socket.h` lines 303
and 397.) Simplification: where `dst` ends before `n` bytes nothing is written; callers below rule this out. -/
def strncpy : List Byte → List Byte → Nat → List Byte
  | dst, _, 0 => dst
  | [], _, _ + 1 => []
  | _ :: d, [], n + 1 => 0 :: strncpy d [] n
  | _ :: d, b :: s, n + 1 => if b = 0 then 0 :: strncpy d [] n else b :: strncpy d s n

/-- `pem_passwd_cb(buf, size, _, password)`: `/repo/src/openssl_socket.h` lines 395-401. The result is the
buffer afterwards and the returned count, or `none` if a byte outside of the buffer is written (line 398 with
`size = 0` writes `buf[-1]`; a negative `size` is a huge count to line 397). -/
def callback (buf : List Byte) (size : Int) (password : List Byte) : Option (List Byte × Nat) :=
  if size ≤ 0 then none
  else if (buf.length : Int) < size then none
  else
    let b := (strncpy buf password size.toNat).set (size.toNat - 1) 0
    some (b, strlen b)

/-- What OpenSSL takes for the password after the callback: the returned count of bytes of its buffer. -/
def taken : Option (List Byte × Nat) → Option (List Byte)
  | none => none
  | some (b, n) => some (b.take n)

/-- A server socket object: `/repo/src/i/openssl_socket.i.h` lines 197 (`_pkey_file_password`), 207 (`_ctx`).
`alive` is false once the object is destroyed, or its constructor threw; its memory is kept to say what is left
there. -/
structure Obj where
  buf : List Byte
  ctx : Option Nat
  alive : Bool
deriving DecidableEq, Repr

/-- An OpenSSL context as far as passwords go: the object whose buffer was registered with it (line 319).
`made` is a record, for the statements below, of the memory the constructor was given as the password.
Simplification: that a context is freed (lines 366-369) is not recorded; the statements below are about contexts
held by an object that is alive. -/
structure Ctx where
  user : Nat
  made : List Byte
deriving DecidableEq, Repr

/-- All objects and all contexts made so far, by their numbers. -/
structure World where
  objs : List Obj
  ctxs : List Ctx
deriving DecidableEq, Repr

/-- What the program may do: make an object (with the memory of the password, what was in the memory of the
object before, and the password the private key file is encrypted with, if any), make another object out of one
by the move constructor, and destroy an object. -/
inductive Op where
  | make (arg : List Byte) (junk : Nat → Byte) (key : Option (List Byte))
  | move (i : Nat)
  | drop (i : Nat)

/-- `_pkey_file_password` after lines 303-304 of `/repo/src/openssl_socket.h`: the copy, then the last byte. -/
def stored (arg : List Byte) (junk : Nat → Byte) : List Byte :=
  (strncpy ((List.range (maxPassword + 1)).map junk) arg maxPassword).set maxPassword 0

/-- Whether `SSL_CTX_use_PrivateKey_file` (line 326) can read the file: it asks only if the file is encrypted,
and then has to be given the password of the file. The buffer of OpenSSL may hold anything; it holds zeros here,
which `C135_partial` shows to make no difference. -/
def loads (buf : List Byte) : Option (List Byte) → Bool
  | none => true
  | some k => taken (callback (List.replicate pemBufsize 0) pemBufsize buf) == some k

/-- One operation. `make`: lines 289-334 (nothing is left if line 300 throws; if line 328 throws, the object is
gone without its destructor, and the context stays). `move`: lines 337-356. `drop`: lines 359-374. Operations on
objects that do not exist or are no longer alive do nothing. -/
def step (w : World) : Op → World
  | .make arg junk key =>
    if strlen arg ≥ maxPassword then w
    else
      { objs := w.objs ++ [{ buf := stored arg junk, ctx := some w.ctxs.length, alive := loads (stored arg junk) key }]
        ctxs := w.ctxs ++ [{ user := w.objs.length, made := arg }] }
  | .move i =>
    match w.objs[i]? with
    | none => w
    | some o =>
      if o.alive then
        { w with objs := w.objs.set i { o with buf := List.replicate (maxPassword + 1) 0, ctx := none } ++ [o] }
      else w
  | .drop i =>
    match w.objs[i]? with
    | none => w
    | some o => if o.alive then { w with objs := w.objs.set i { o with ctx := none, alive := false } } else w

/-- Everything the program did, from the beginning. -/
def run (ops : List Op) : World := ops.foldl step ⟨[], []⟩

/-- What OpenSSL gets when it asks on behalf of a context: the bytes taken; the callback wrote outside of the
buffer; or the registered object is no longer alive, and the callback reads memory that is not its own. -/
inductive Answer where
  | text (p : List Byte)
  | outside
  | dead
deriving DecidableEq, Repr

/-- OpenSSL asks on behalf of context `c` with a buffer and a size: lines 318-319 and 395-401. -/
def ask (w : World) (c : Nat) (buf : List Byte) (size : Int) : Answer :=
  match w.ctxs[c]? with
  | none => .dead
  | some x =>
    match w.objs[x.user]? with
    | none => .dead
    | some o =>
      if o.alive then
        match taken (callback buf size o.buf) with
        | none => .outside
        | some p => .text p
      else .dead

/-! ## What the statements speak of -/

/-- The text in memory: the bytes before the first zero. -/
def text (mem : List Byte) : List Byte := mem.takeWhile (· ≠ 0)

/-- C135, in full: whenever OpenSSL asks on behalf of a context some live server holds, with room for the password
and its zero, it gets the text the context was made with. -/
def C135Full : Prop :=
  ∀ (ops : List Op) (i c : Nat) (o : Obj) (x : Ctx) (buf : List Byte) (size : Int),
    (run ops).objs[i]? = some o → o.alive = true → o.ctx = some c → (run ops).ctxs[c]? = some x →
    ((text x.made).length : Int) < size → size ≤ buf.length →
    ask (run ops) c buf size = .text (text x.made)

/-! ## The library functions -/

theorem strlen_eq (m : List Byte) : strlen m = (text m).length := by
  induction m with
  | nil => rfl
  | cons b s ih =>
    by_cases h : b = 0
    · simp [strlen, text, h]
    · simp only [strlen, if_neg h, ih, text]
      rw [List.takeWhile_cons_of_pos (by simpa using h)]
      rfl

theorem text_take (m : List Byte) : m.take (strlen m) = text m := by
  induction m with
  | nil => rfl
  | cons b s ih =>
    by_cases h : b = 0
    · simp [strlen, text, h]
    · simp only [strlen, if_neg h, List.take_succ_cons, ih, text]
      rw [List.takeWhile_cons_of_pos (by simpa using h)]

theorem strncpy_nil (d : List Byte) (n : Nat) (h : n ≤ d.length) :
    strncpy d [] n = List.replicate n 0 ++ d.drop n := by
  induction n generalizing d with
  | zero => cases d <;> simp [strncpy]
  | succ n ih =>
    cases d with
    | nil => simp at h
    | cons a d =>
      simp only [List.length_cons] at h
      simp [strncpy, ih d (by omega), List.replicate_succ]

/-- What `strncpy` leaves: the text, cut at `n`, zeros up to `n`, and the old bytes from there. -/
theorem strncpy_eq (d s : List Byte) (n : Nat) (h : n ≤ d.length) :
    strncpy d s n = (text s).take n ++ List.replicate (n - (text s).length) 0 ++ d.drop n := by
  induction n generalizing d s with
  | zero => cases d <;> simp [strncpy]
  | succ n ih =>
    cases d with
    | nil => simp at h
    | cons a d =>
      simp only [List.length_cons] at h
      cases s with
      | nil => simp [strncpy, strncpy_nil d n (by omega), text, List.replicate_succ]
      | cons b s =>
        by_cases hb : b = 0
        · simp [strncpy, hb, strncpy_nil d n (by omega), text, List.replicate_succ]
        · have ht : text (b :: s) = b :: text s := by
            simp only [text]; rw [List.takeWhile_cons_of_pos (by simpa using hb)]
          simp only [strncpy, if_neg hb, ih d s (by omega), ht]
          simp

theorem text_ne (m : List Byte) : ∀ b ∈ text m, b ≠ 0 := by
  induction m with
  | nil => intro b hb; simp [text] at hb
  | cons a m ih =>
    intro b hb
    by_cases h : a = 0
    · simp [text, h] at hb
    · simp only [text] at hb
      rw [List.takeWhile_cons_of_pos (by simpa using h)] at hb
      rcases List.mem_cons.mp hb with rfl | hb
      · exact h
      · exact ih b hb

/-- Text followed by a zero reads back as the text. -/
theorem text_zero (t r : List Byte) (h : ∀ b ∈ t, b ≠ 0) : text (t ++ 0 :: r) = t := by
  induction t with
  | nil => simp [text]
  | cons a t ih =>
    have ha : a ≠ 0 := h a (by simp)
    simp only [text, List.cons_append] at ih ⊢
    rw [List.takeWhile_cons_of_pos (by simpa using ha), ih (fun b hb => h b (by simp [hb]))]

/-- A copy of `n` bytes with the last one set to zero: the text cut at `n - 1`, a zero, and something; what is
behind the `n` bytes stays. -/
theorem copy_eq (d s : List Byte) (n : Nat) (hn : 0 < n) (h : n ≤ d.length) :
    ∃ r, (strncpy d s n).set (n - 1) 0 = (text s).take (n - 1) ++ 0 :: r ++ d.drop n ∧
      ((text s).take (n - 1) ++ 0 :: r).length = n := by
  rw [strncpy_eq d s n h]
  by_cases hl : (text s).length < n
  · refine ⟨List.replicate (n - 1 - (text s).length) 0, ?_, ?_⟩
    · have e1 : (text s).take n = text s := List.take_of_length_le (by omega)
      have e2 : (text s).take (n - 1) = text s := List.take_of_length_le (by omega)
      rw [e1, e2]
      have e3 : n - (text s).length = n - 1 - (text s).length + 1 := by omega
      rw [e3, List.replicate_succ]
      apply List.ext_getElem?
      intro k
      rw [List.getElem?_set]
      split
      · next hk =>
        subst hk
        rw [if_pos (by simp; omega)]
        have hz : 0 :: List.replicate (n - 1 - (text s).length) (0 : Byte)
            = List.replicate (n - 1 - (text s).length + 1) 0 := by rw [List.replicate_succ]
        rw [hz, List.getElem?_append_left (by simp; omega), List.getElem?_append_right (by omega),
          List.getElem?_replicate, if_pos (by omega)]
      · rfl
    · simp; omega
  · refine ⟨[], ?_, ?_⟩
    · have e0 : n - (text s).length = 0 := by omega
      rw [e0]
      simp only [List.replicate_zero, List.append_nil]
      apply List.ext_getElem?
      intro k
      rw [List.getElem?_set]
      have hlen : ((text s).take n).length = n := by simp; omega
      have hlen1 : ((text s).take (n - 1)).length = n - 1 := by simp; omega
      split
      · next hk =>
        subst hk
        rw [if_pos (by simp; omega), List.getElem?_append_left (by simp; omega),
          List.getElem?_append_right (by omega), hlen1]
        simp
      · next hk =>
        by_cases hkn : k < n
        · rw [List.getElem?_append_left (by omega), List.getElem?_append_left (by simp; omega),
            List.getElem?_append_left (by omega), List.getElem?_take, List.getElem?_take,
            if_pos (by omega), if_pos (by omega)]
        · rw [List.getElem?_append_right (by omega), List.getElem?_append_right (by simp; omega), hlen]
          congr 1
          simp; omega
    · simp; omega

/-- The callback, for every buffer with at least one byte: the bytes taken are the text, cut at one byte less than
the size; what is behind the size in the buffer stays. -/
theorem callback_eq (buf pw : List Byte) (size : Int) (h : 0 < size) (hb : size ≤ buf.length) :
    ∃ b n, callback buf size pw = some (b, n) ∧ b.take n = (text pw).take (size.toNat - 1) ∧
      b.length = buf.length ∧ b.drop size.toNat = buf.drop size.toNat := by
  obtain ⟨r, hr, hlen⟩ := copy_eq buf pw size.toNat (by omega) (by omega)
  refine ⟨(strncpy buf pw size.toNat).set (size.toNat - 1) 0,
    strlen ((strncpy buf pw size.toNat).set (size.toNat - 1) 0), ?_, ?_, ?_, ?_⟩
  · simp only [callback]
    rw [if_neg (by omega), if_neg (by omega)]
  · rw [text_take, hr, List.append_assoc, List.cons_append]
    exact text_zero _ _ (fun b hb => text_ne pw b (List.mem_of_mem_take hb))
  · rw [hr, List.length_append, hlen, List.length_drop]; omega
  · rw [hr, List.drop_append, hlen]
    simp [List.drop_of_length_le (Nat.le_of_eq hlen)]

/-- The stored password reads as the text given, for texts the constructor accepts. -/
theorem text_stored (arg : List Byte) (junk : Nat → Byte) (h : strlen arg < maxPassword) :
    text (stored arg junk) = text arg := by
  have hl : (text arg).length < 256 := by rw [← strlen_eq]; exact h
  have hm : maxPassword = 256 := rfl
  unfold stored
  rw [strncpy_eq _ _ _ (by simp)]
  have e1 : (text arg).take maxPassword = text arg := List.take_of_length_le (by omega)
  have e3 : maxPassword - (text arg).length = maxPassword - 1 - (text arg).length + 1 := by omega
  rw [e1, e3, List.replicate_succ, List.append_assoc, List.cons_append, List.set_append_right _ _ (by omega)]
  have : maxPassword - (text arg).length = maxPassword - 1 - (text arg).length + 1 := by omega
  rw [this, List.set_cons_succ]
  exact text_zero _ _ (text_ne arg)

theorem text_zeros (n : Nat) : text (List.replicate n 0) = [] := by
  cases n with
  | zero => rfl
  | succ n => simp [List.replicate_succ, text]

/-! ## What holds after anything the program did -/

/-- An object that is alive and holds a context either is the one registered with it, and has the password; or the
one registered was moved from, and has zeros. -/
def Inv (ops : List Op) (w : World) : Prop :=
  ∀ (i c : Nat) (o : Obj), w.objs[i]? = some o → o.alive = true → o.ctx = some c →
    ∃ x, w.ctxs[c]? = some x ∧
      ((x.user = i ∧ text o.buf = text x.made ∧ (text x.made).length < 256) ∨
       (∃ u, w.objs[x.user]? = some u ∧ text u.buf = [] ∧ x.user ≠ i ∧ ∃ j, Op.move j ∈ ops ∧ j = x.user))

theorem inv_step (ops : List Op) (w : World) (op : Op) (h : Inv ops w) : Inv (ops ++ [op]) (step w op) := by
  have mono : ∀ {u : Nat}, (∃ j, Op.move j ∈ ops ∧ j = u) → ∃ j, Op.move j ∈ ops ++ [op] ∧ j = u :=
    fun ⟨j, hj, e⟩ => ⟨j, List.mem_append_left _ hj, e⟩
  have keep : Inv (ops ++ [op]) w := by
    intro i c o hi ha hc
    obtain ⟨x, hx, hd⟩ := h i c o hi ha hc
    refine ⟨x, hx, hd.imp id ?_⟩
    rintro ⟨u, hu, hz, hne, hm⟩
    exact ⟨u, hu, hz, hne, mono hm⟩
  cases op with
  | make arg junk key =>
    simp only [step]
    split
    · exact keep
    · next hlt =>
      intro i c o hi ha hc
      simp only at hi ⊢
      rw [List.getElem?_append] at hi
      split at hi
      · next hlti =>
        obtain ⟨x, hx, hd⟩ := keep i c o hi ha hc
        refine ⟨x, ?_, hd.imp id ?_⟩
        · rw [List.getElem?_append_left (by
            have := (List.getElem?_eq_some_iff.mp hx).1; exact this)]; exact hx
        · rintro ⟨u, hu, hz, hne, hm⟩
          refine ⟨u, ?_, hz, hne, hm⟩
          rw [List.getElem?_append_left ((List.getElem?_eq_some_iff.mp hu).1)]; exact hu
      · next hge =>
        have hi0 : i - w.objs.length = 0 := by
          have := (List.getElem?_eq_some_iff.mp hi).1
          simp at this; omega
        rw [hi0] at hi
        simp only [List.getElem?_cons_zero, Option.some.injEq] at hi
        subst hi
        simp only [Option.some.injEq] at hc
        subst hc
        refine ⟨{ user := w.objs.length, made := arg }, by simp, Or.inl ⟨?_, ?_, ?_⟩⟩
        · show w.objs.length = i
          omega
        · exact text_stored arg junk (by omega)
        · show (text arg).length < 256
          rw [← strlen_eq]; unfold maxPassword at hlt; omega
  | move k =>
    simp only [step]
    split
    · exact keep
    · next p hp =>
      split
      · next hpa =>
        have hk : k < w.objs.length := (List.getElem?_eq_some_iff.mp hp).1
        -- where an object that is not `k` is afterwards
        have other : ∀ {j : Nat} {u : Obj}, j ≠ k → w.objs[j]? = some u →
            (w.objs.set k { p with buf := List.replicate (maxPassword + 1) 0, ctx := none } ++ [p])[j]? = some u := by
          intro j u hj hu
          have := (List.getElem?_eq_some_iff.mp hu).1
          rw [List.getElem?_append_left (by simpa using this), List.getElem?_set, if_neg (fun e => hj e.symm)]
          exact hu
        have self : (w.objs.set k { p with buf := List.replicate (maxPassword + 1) 0, ctx := none } ++ [p])[k]?
            = some { p with buf := List.replicate (maxPassword + 1) 0, ctx := none } := by
          rw [List.getElem?_append_left (by simpa using hk), List.getElem?_set, if_pos rfl, if_pos hk]
        -- the registered object of a context, after the move, unless it is the holder still
        have reg : ∀ {v : Nat}, (v = k ∨ ∃ u, w.objs[v]? = some u ∧ text u.buf = []) →
            ∃ u, (w.objs.set k { p with buf := List.replicate (maxPassword + 1) 0, ctx := none } ++ [p])[v]? = some u ∧
              text u.buf = [] := by
          intro v hv
          by_cases e : v = k
          · subst e; exact ⟨_, self, text_zeros _⟩
          · rcases hv with hv | ⟨u, hu, hz⟩
            · exact absurd hv e
            · exact ⟨u, other e hu, hz⟩
        intro i c o hi ha hc
        simp only at hi ⊢
        by_cases hil : i < w.objs.length
        · by_cases hik : i = k
          · subst hik
            rw [self] at hi
            simp only [Option.some.injEq] at hi
            subst hi
            simp at hc
          · have hi' : w.objs[i]? = some o := by
              rw [List.getElem?_append_left (by simpa using hil), List.getElem?_set,
                if_neg (fun e => hik e.symm)] at hi
              exact hi
            obtain ⟨x, hx, hd⟩ := keep i c o hi' ha hc
            refine ⟨x, hx, hd.imp id ?_⟩
            rintro ⟨u, hu, hz, hne, hm⟩
            obtain ⟨u', hu', hz'⟩ := reg (v := x.user) (Or.inr ⟨u, hu, hz⟩)
            exact ⟨u', hu', hz', hne, hm⟩
        · have hi0 : i = w.objs.length := by
            have := (List.getElem?_eq_some_iff.mp hi).1
            simp at this; omega
          subst hi0
          have hop : p = o := by
            rw [List.getElem?_append_right (by simp)] at hi
            simpa using hi
          subst hop
          obtain ⟨x, hx, hd⟩ := keep k c p hp ha hc
          refine ⟨x, hx, Or.inr ?_⟩
          rcases hd with ⟨hu, -, -⟩ | ⟨u, hu, hz, hne, hm⟩
          · obtain ⟨u', hu', hz'⟩ := reg (v := x.user) (Or.inl hu)
            exact ⟨u', hu', hz', by omega, k, by simp, hu.symm⟩
          · obtain ⟨u', hu', hz'⟩ := reg (v := x.user) (Or.inr ⟨u, hu, hz⟩)
            have := (List.getElem?_eq_some_iff.mp hu).1
            exact ⟨u', hu', hz', by omega, hm⟩
      · exact keep
  | drop k =>
    simp only [step]
    split
    · exact keep
    · next p hp =>
      split
      · next hpa =>
        have hk : k < w.objs.length := (List.getElem?_eq_some_iff.mp hp).1
        intro i c o hi ha hc
        simp only at hi ⊢
        rw [List.getElem?_set] at hi
        split at hi
        · next hik =>
          simp only [Option.some.injEq] at hi
          subst hi
          simp at ha
        · next hik =>
          obtain ⟨x, hx, hd⟩ := keep i c o hi ha hc
          refine ⟨x, hx, hd.imp id ?_⟩
          rintro ⟨u, hu, hz, hne, hm⟩
          by_cases e : k = x.user
          · refine ⟨{ p with ctx := none, alive := false }, ?_, ?_, hne, hm⟩
            · rw [List.getElem?_set, if_pos e, if_pos hk]
            · rw [← e, hp] at hu
              simp only [Option.some.injEq] at hu
              subst hu
              exact hz
          · refine ⟨u, ?_, hz, hne, hm⟩
            rw [List.getElem?_set, if_neg e]; exact hu
      · exact keep

theorem inv_run (ops : List Op) : Inv ops (run ops) := by
  suffices H : ∀ (post pre : List Op) (w : World), Inv pre w → Inv (pre ++ post) (post.foldl step w) by
    have := H ops [] ⟨[], []⟩ (by intro i c o hi; simp at hi)
    rw [List.nil_append] at this
    exact this
  intro post
  induction post with
  | nil => intro pre w h; simpa using h
  | cons op post ih =>
    intro pre w h
    have := ih (pre ++ [op]) (step w op) (inv_step pre w op h)
    simpa using this

/-! ## The theorems -/

/-- C135, part: whatever the program did with its servers, as long as the object registered with a context was never
moved from, OpenSSL gets the text the context was made with, cut at one byte less than the size it passes: the whole
text if the size is greater than its length. The buffer may hold anything before. -/
theorem C135_partial (ops : List Op) (i c : Nat) (o : Obj) (x : Ctx) (buf : List Byte) (size : Int)
    (hi : (run ops).objs[i]? = some o) (ha : o.alive = true) (hc : o.ctx = some c)
    (hx : (run ops).ctxs[c]? = some x) (hmove : Op.move x.user ∉ ops)
    (hs : 0 < size) (hb : size ≤ buf.length) :
    ask (run ops) c buf size = .text ((text x.made).take (size.toNat - 1)) ∧
    (((text x.made).length : Int) < size → ask (run ops) c buf size = .text (text x.made)) := by
  obtain ⟨x', hx', hd⟩ := inv_run ops i c o hi ha hc
  rw [hx] at hx'
  simp only [Option.some.injEq] at hx'
  subst hx'
  have key : ask (run ops) c buf size = .text ((text x.made).take (size.toNat - 1)) := by
    rcases hd with ⟨hu, ht, -⟩ | ⟨u, -, -, -, j, hj, e⟩
    · obtain ⟨b, n, hcb, htk, -, -⟩ := callback_eq buf o.buf size hs hb
      simp only [ask, hx, hu, hi, ha, if_true, hcb, taken, htk, ht]
    · subst e; exact absurd hj hmove
  refine ⟨key, fun hl => ?_⟩
  rw [key, List.take_of_length_le (by omega)]

/-- C135, after a move: when a server other than the registered object holds the context, OpenSSL never gets anything
but the empty text, or the callback reads an object that is gone. -/
theorem C135_moved_partial (ops : List Op) (i c : Nat) (o : Obj) (x : Ctx) (buf : List Byte) (size : Int)
    (hi : (run ops).objs[i]? = some o) (ha : o.alive = true) (hc : o.ctx = some c)
    (hx : (run ops).ctxs[c]? = some x) (hne : x.user ≠ i) (hs : 0 < size) (hb : size ≤ buf.length) :
    ask (run ops) c buf size = .text [] ∨ ask (run ops) c buf size = .dead := by
  obtain ⟨x', hx', hd⟩ := inv_run ops i c o hi ha hc
  rw [hx] at hx'
  simp only [Option.some.injEq] at hx'
  subst hx'
  rcases hd with ⟨hu, -⟩ | ⟨u, hu, hz, -, -⟩
  · exact absurd hu hne
  · obtain ⟨b, n, hcb, htk, -, -⟩ := callback_eq buf u.buf size hs hb
    cases hal : u.alive
    · right; simp [ask, hx, hu, hal]
    · left; simp [ask, hx, hu, hal, hcb, taken, htk, hz]

/-- C135, the callback by itself: for every buffer and every size it leaves the buffer with its length and the bytes
behind the size as they were, whenever the size is at least one and within the buffer; and with any other size it
writes outside of the buffer. -/
theorem C135_bounds_partial (buf pw : List Byte) (size : Int) :
    (0 < size ∧ size ≤ buf.length →
      ∃ b n, callback buf size pw = some (b, n) ∧ b.length = buf.length ∧ n < size.toNat ∧
        b.drop size.toNat = buf.drop size.toNat) ∧
    (¬(0 < size ∧ size ≤ buf.length) → callback buf size pw = none) := by
  constructor
  · rintro ⟨h, hb⟩
    obtain ⟨b, n, hcb, htk, hlen, hdrop⟩ := callback_eq buf pw size h hb
    refine ⟨b, n, hcb, hlen, ?_, hdrop⟩
    have hn : n = strlen b := by
      simp only [callback, if_neg (show ¬ size ≤ 0 by omega),
        if_neg (show ¬ (buf.length : Int) < size by omega), Option.some.injEq, Prod.mk.injEq] at hcb
      rw [← hcb.2, hcb.1]
    have hnb : n ≤ b.length := by
      rw [hn, strlen_eq]
      exact (List.takeWhile_sublist _).length_le
    have := congrArg List.length htk
    simp only [List.length_take] at this
    omega
  · intro h
    simp only [callback]
    split
    · rfl
    · split
      · rfl
      · omega

/-- C135, the constructor: a server comes to be exactly if the password is shorter than 256 bytes and is the one the
key file is encrypted with (or the file is not encrypted); no prefix and no longer text opens the file. -/
theorem C135_load_partial (ops : List Op) (arg : List Byte) (junk : Nat → Byte) (key : Option (List Byte)) :
    (∃ o, (run (ops ++ [.make arg junk key])).objs[(run ops).objs.length]? = some o ∧ o.alive = true) ↔
      (text arg).length < 256 ∧ (∀ k, key = some k → k = text arg) := by
  have hr : run (ops ++ [.make arg junk key]) = step (run ops) (.make arg junk key) := by
    simp [run]
  rw [hr, ← strlen_eq]
  simp only [step]
  by_cases h : strlen arg ≥ maxPassword
  · rw [if_pos h]
    unfold maxPassword at h
    simp; omega
  · rw [if_neg h]
    have h256 : strlen arg < 256 := by unfold maxPassword at h; omega
    have hlen : (text arg).length < 256 := by rw [← strlen_eq]; exact h256
    have hl : loads (stored arg junk) key = true ↔ ∀ k, key = some k → k = text arg := by
      cases key with
      | none => simp [loads]
      | some k =>
        obtain ⟨b, n, hcb, htk, -, -⟩ := callback_eq (List.replicate pemBufsize 0) (stored arg junk)
          (pemBufsize : Int) (by decide) (by simp)
        have hle : (text arg).length ≤ (pemBufsize : Int).toNat - 1 := by
          have : (pemBufsize : Int).toNat = 1024 := rfl
          omega
        rw [text_stored arg junk (by omega), List.take_of_length_le hle] at htk
        simp only [loads, hcb, taken, htk, beq_iff_eq, Option.some.injEq]
        constructor
        · rintro e k' rfl; exact e.symm
        · intro e; exact (e k rfl).symm
    simp [h256, hl]

/-! ## Cases -/

/-- "abc" and what follows it in memory. -/
def abc : List Byte := [97, 98, 99, 0, 7, 7]

/-- A server made with the right password, another one moved to a second place. -/
def history : List Op :=
  [.make abc (fun _ => 9) (some [97, 98, 99]), .make abc (fun _ => 9) none, .move 1, .drop 1]

example : ask (run history) 0 (List.replicate 20 5) 10 = .text [97, 98, 99] := by decide +kernel
example : ∃ o x, (run history).objs[0]? = some o ∧ o.alive = true ∧ o.ctx = some 0 ∧
    (run history).ctxs[0]? = some x ∧ x.user = 0 :=
  ⟨⟨stored abc (fun _ => 9), some 0, true⟩, ⟨0, abc⟩, by decide +kernel⟩
example : ask (run history) 0 (List.replicate 20 5) 3 = .text [97, 98] := by decide +kernel
example : ask (run history) 1 (List.replicate 20 5) 10 = .dead := by decide +kernel
example : (run history).objs[2]?.map (fun o => (o.alive, o.ctx)) = some (true, some 1) := by decide +kernel
example : callback [5, 5, 5, 5, 5] 4 abc = some ([97, 98, 99, 0, 5], 3) := by decide +kernel
example : callback [5, 5, 5, 5, 5] 0 abc = none := by decide +kernel

/-- C135 fails: the object made by the move constructor holds the context and the password, and OpenSSL, asking for it,
gets the empty text of the object it was made from. -/
theorem C135_violated : ¬ C135Full := by
  intro h
  have := h [.make abc (fun _ => 9) none, .move 0] 1 0
    ⟨stored abc (fun _ => 9), some 0, true⟩ ⟨0, abc⟩ (List.replicate 20 5) 10
    (by decide +kernel) (by decide +kernel) (by decide +kernel) (by decide +kernel) (by decide +kernel) (by decide +kernel)
  revert this
  decide +kernel

/-- Once the object moved from is gone, the callback reads memory of an object that does not exist, although the server
made from it is alive and holds the context. -/
theorem C135_violated_dead :
    ∃ ops o, (run ops).objs[1]? = some o ∧ o.alive = true ∧ o.ctx = some 0 ∧
      ∀ buf size, ask (run ops) 0 buf size = .dead := by
  refine ⟨[.make abc (fun _ => 9) none, .move 0, .drop 0], ⟨stored abc (fun _ => 9), some 0, true⟩,
    by decide +kernel, rfl, rfl, ?_⟩
  intro buf size
  have hx : (run [.make abc (fun _ => 9) none, .move 0, .drop 0]).ctxs[0]? = some ⟨0, abc⟩ := by decide +kernel
  have ho : (run [.make abc (fun _ => 9) none, .move 0, .drop 0]).objs[0]?
      = some ⟨List.replicate 257 0, none, false⟩ := by decide +kernel
  generalize List.replicate 257 (0 : Byte) = z at ho
  simp only [ask, hx, ho]
  rfl

/-- A destroyed server leaves its password where it was: the destructor does not wipe it, though the move constructor
does. -/
theorem C135_violated_left :
    ∃ ops o x, (run ops).objs[0]? = some o ∧ o.alive = false ∧ (run ops).ctxs[0]? = some x ∧
      text o.buf = text x.made ∧ text x.made ≠ [] := by
  refine ⟨[.make abc (fun _ => 9) none, .drop 0], ⟨stored abc (fun _ => 9), none, false⟩, ⟨0, abc⟩, ?_⟩
  decide +kernel

end Abc.Password

import Verif.Resource.Kernel

/-!
# Model of the socket classes

`/repo/src/socket.h` (`basic_socket`, `client_socket`, `udp_socket`, `tcp_client_socket`,
`tcp_server_socket`) and `/repo/src/openssl_socket.h` (`openssl_tcp_client_socket`,
`openssl_tcp_server_socket`): which descriptor, `SSL` and `SSL_CTX` an object holds, when they are
obtained, used and released.

The answers of the operating system and of OpenSSL are part of each operation and arbitrary.  Not
modelled: addresses and host names, the bytes that are sent and received, log output, the state of a
connection.  A program is a sequence of operations on objects that are numbered in the order of their
construction; an object may be destroyed at any time.  C++ destroys the parts of an object whose
constructor throws, but does not run the destructor of its class: that is what the model does.
-/

namespace Abc.Resource

inductive Cls where
  | udp | tcpClient | tcpServer | tlsClient | tlsServer
deriving DecidableEq, Repr

/-- A socket object: `_fd` (`none` is `socket::fd::invalid`), whether `_log` is not null, and the
`_ctx` and `_ssl` of the TLS classes (`none` is `nullptr`). -/
structure Obj where
  cls : Cls
  log : Bool
  fd : Option Desc
  ctx : Option Nat
  ssl : Option Nat
deriving DecidableEq, Repr

/-- `class openssl_tcp_client_socket : public tcp_client_socket`, `i/openssl_socket.i.h` 47;
`udp_socket` and `tcp_client_socket` derive from `client_socket`, `i/socket.i.h` 344, 379. -/
def Cls.isClient : Cls → Bool
  | .udp | .tcpClient | .tlsClient => true
  | .tcpServer | .tlsServer => false

/-! ## OpenSSL -/

/-- An `SSL`: the context it was created from, the descriptor given to `SSL_set_fd`, and whether its
handshake has been completed. -/
structure Ssl where
  id : Nat
  ctx : Nat
  bio : Option Desc
  ready : Bool
deriving DecidableEq, Repr

/-- What OpenSSL has allocated.  A context is counted: it has one reference from `SSL_CTX_new` and
one for each `SSL` created from it, and lives as long as there is one. -/
structure Ossl where
  /-- one entry for each reference -/
  refs : List Nat
  ssls : List Ssl
  /-- names given so far -/
  names : Nat
  /-- a reference was released that did not exist, or something released was used -/
  bad : Bool
  /-- calls `SSL_connect`, `SSL_accept`, `SSL_read`, `SSL_write`, `SSL_shutdown` made on a number
  whose opening is over -/
  stray : List Desc
deriving DecidableEq, Repr

namespace Ossl

def init : Ossl := ⟨[], [], 0, false, []⟩

/-- `SSL_CTX_new`. -/
def ctxNew (o : Ossl) (ok : Bool) : Ossl × Option Nat :=
  if ok then ({ o with refs := o.names :: o.refs, names := o.names + 1 }, some o.names)
  else (o, none)

/-- `SSL_CTX_free`. -/
def ctxFree (o : Ossl) (c : Nat) : Ossl :=
  if c ∈ o.refs then { o with refs := o.refs.erase c } else { o with bad := true }

/-- `SSL_new`; a null context makes it fail. -/
def sslNew (o : Ossl) (c : Option Nat) (ok : Bool) : Ossl × Option Nat :=
  match c with
  | none => (o, none)
  | some c =>
    if c ∈ o.refs then
      if ok then
        ({ o with refs := c :: o.refs, ssls := ⟨o.names, c, none, false⟩ :: o.ssls,
                  names := o.names + 1 }, some o.names)
      else (o, none)
    else ({ o with bad := true }, none)

def find (o : Ossl) (s : Nat) : Option Ssl := o.ssls.find? (fun r => r.id == s)

def modify (o : Ossl) (s : Nat) (f : Ssl → Ssl) : Ossl :=
  match o.find s with
  | none => { o with bad := true }
  | some _ => { o with ssls := o.ssls.map (fun r => if r.id = s then f r else r) }

/-- `SSL_free`. -/
def sslFree (o : Ossl) (s : Nat) : Ossl :=
  match o.find s with
  | none => { o with bad := true }
  | some r =>
    { o with ssls := o.ssls.filter (fun r => r.id ≠ s), refs := o.refs.erase r.ctx }

/-- `SSL_set_fd`. -/
def setFd (o : Ossl) (s : Nat) (fd : Option Desc) (ok : Bool) : Ossl :=
  if ok then o.modify s (fun r => { r with bio := fd }) else o

/-- A call that reads or writes through the descriptor of an `SSL`. -/
def io (o : Ossl) (k : Kernel) (s : Nat) : Ossl :=
  match o.find s with
  | none => { o with bad := true }
  | some r =>
    match r.bio with
    | none => o
    | some d => if d ∈ k.table then o else { o with stray := d :: o.stray }

/-- `SSL_connect`, `SSL_accept`. -/
def handshake (o : Ossl) (k : Kernel) (s : Nat) (ok : Bool) : Ossl :=
  let o := o.io k s
  if ok then o.modify s (fun r => { r with ready := true }) else o

/-- `SSL_shutdown`, `SSL_read`, `SSL_write`: without a completed handshake nothing goes out. -/
def transfer (o : Ossl) (k : Kernel) (s : Nat) : Ossl :=
  match o.find s with
  | none => { o with bad := true }
  | some r => if r.ready then o.io k s else o

end Ossl

/-! ## `basic_socket` -/

/-- `close`, `socket.h` 98-109. -/
def closeSock (k : Kernel) (x : Obj) : Kernel × Obj :=
  match x.fd with
  | none => (k, x)
  | some d => ((k.use d).close d, { x with fd := none })

/-- `open`, `socket.h` 113-129; the flag says whether it returns (otherwise it throws). -/
def openSock (k : Kernel) (x : Obj) (sock : Option Nat) : Kernel × Obj × Bool :=
  let (k, x) := closeSock k x
  let (k, fd) := k.fresh sock
  (k, { x with fd := fd }, fd.isSome)

/-- The loop of `tie` over the addresses of a host, `socket.h` 193-201, with `::bind` or `::connect`
of 245-274; the list has the answer for each address. -/
def tieAddrs (k : Kernel) (d : Desc) : List Bool → Kernel × Bool
  | [] => (k, false)
  | r :: rs =>
    let k := k.use d
    if r then (k, true) else tieAddrs k d rs

inductive Tie where
  | bind | connect
deriving DecidableEq, Repr

/-- A failed `tie` closes the socket if it was to be bound, `socket.h` 176-178, 206-208. -/
def tieFail (k : Kernel) (x : Obj) (tt : Tie) : Kernel × Obj × Bool :=
  match tt with
  | .bind => let (k, x) := closeSock k x; (k, x, false)
  | .connect => (k, x, false)

/-- `tie(host, port, tt)` once the socket is open, `socket.h` 170-219; `hosts` is the answer of
`getaddrinfo`, with the outcome for each address. -/
def tieOpen (k : Kernel) (x : Obj) (tt : Tie) (hosts : Option (List Bool)) : Kernel × Obj × Bool :=
  match hosts with
  | none => tieFail k x tt
  | some rs =>
    match x.fd with
    | none => (k, x, false)
    | some d =>
      let (k, done) := tieAddrs k d rs
      if done then (k, x, true) else tieFail k x tt

/-- `tie(host, port, tt)`, `socket.h` 158-220. -/
def tieHost (k : Kernel) (x : Obj) (tt : Tie) (sock : Option Nat) (hosts : Option (List Bool)) :
    Kernel × Obj × Bool :=
  match x.fd with
  | none =>
    let (k, x, ok) := openSock k x sock
    if ok then tieOpen k x tt hosts else (k, x, false)
  | some _ =>
    match tt with
    | .bind => (k, x, false)
    | .connect => tieOpen k x tt hosts

/-- `tie(address, tt)`, `socket.h` 224-241, used with `tt = connect` only (`socket.h` 344-346): a
failure leaves the socket open. -/
def tieAddress (k : Kernel) (x : Obj) (sock : Option Nat) (r : Bool) : Kernel × Obj × Bool :=
  match x.fd with
  | none =>
    let (k, x, ok) := openSock k x sock
    match ok, x.fd with
    | true, some d => (k.use d, x, r)
    | _, _ => (k, x, false)
  | some d => (k.use d, x, r)

/-- A call on `fd()` that does not check `is_open` first: `::listen`, `::accept`, `socket.h` 479, 506.
On `-1` it fails. -/
def useFd (k : Kernel) (x : Obj) : Kernel :=
  match x.fd with
  | none => k
  | some d => k.use d

/-! ## Programs -/

inductive Out where
  /-- returned, or a constructor completed -/
  | done
  /-- an exception was thrown -/
  | thrown
  /-- `send`, `receive` returned a number of bytes -/
  | count (n : Nat)
  /-- undefined behaviour: the process may end -/
  | ub
  /-- there is no such object, or its class has no such operation: not a C++ program -/
  | none
deriving DecidableEq, Repr

structure World where
  k : Kernel
  o : Ossl
  objs : List (Option Obj)
deriving DecidableEq, Repr

def World.init : World := ⟨Kernel.init, Ossl.init, []⟩

def World.get (w : World) (i : Nat) : Option Obj := (w.objs[i]?).getD Option.none

def World.put (w : World) (i : Nat) (x : Option Obj) : World := { w with objs := w.objs.set i x }

def World.add (w : World) (x : Obj) : World := { w with objs := w.objs ++ [some x] }

/-- How the host name given to `connect` or `bind`, or the address given to `connect`, is resolved. -/
inductive Where where
  | host (hosts : Option (List Bool))
  | address (r : Bool)
deriving DecidableEq, Repr

/-- Answers to `connect_handshake`: `SSL_set_fd`, `SSL_connect`. -/
structure Shake where
  setFd : Bool
  connect : Bool
deriving DecidableEq, Repr

inductive Op where
  /-- constructors of the plain classes -/
  | new (cls : Cls) (log : Bool)
  /-- `openssl_tcp_client_socket(verify_server, family, log)`; answers of `SSL_CTX_new`, `SSL_new` -/
  | newTlsClient (log : Bool) (ctx ssl : Bool)
  /-- `openssl_tcp_server_socket(...)`; answers of `SSL_CTX_new`,
  `SSL_CTX_use_certificate_file`, `SSL_CTX_use_PrivateKey_file` -/
  | newTlsServer (log : Bool) (ctx cert key : Bool)
  /-- move constructors -/
  | move (i : Nat)
  /-- destructors -/
  | destroy (i : Nat)
  | close (i : Nat)
  | bind (i : Nat) (sock : Option Nat) (hosts : Option (List Bool))
  | connect (i : Nat) (sock : Option Nat) (dst : Where) (sh : Shake)
  | listen (i : Nat) (ok : Bool)
  /-- answers of `::accept`, `SSL_new`, `SSL_set_fd`, `SSL_accept` -/
  | accept (i : Nat) (fd : Option Nat) (ssl setFd shake : Bool)
  /-- `send`, `receive` with or without an address; the answer of the system -/
  | transfer (i : Nat) (address : Bool) (n : Option Nat)
deriving DecidableEq, Repr

/-- `~openssl_tcp_client_socket`, `openssl_socket.h` 116-136. -/
def tlsClientDtor (k : Kernel) (o : Ossl) (x : Obj) : Ossl :=
  let o := match x.ssl with
    | none => o
    | some s => (o.transfer k s).sslFree s
  match x.ctx with
  | none => o
  | some c => o.ctxFree c

/-- `~openssl_tcp_server_socket`, `openssl_socket.h` 360-374. -/
def tlsServerDtor (o : Ossl) (x : Obj) : Ossl :=
  match x.ctx with
  | none => o
  | some c => o.ctxFree c

/-- The destructor of a whole object: that of its class, then `~basic_socket`, `socket.h` 82-88. -/
def destroyObj (k : Kernel) (o : Ossl) (x : Obj) : Kernel × Ossl :=
  let o := match x.cls with
    | .tlsClient => tlsClientDtor k o x
    | .tlsServer => tlsServerDtor o x
    | _ => o
  ((closeSock k x).1, o)

/-- The object a move leaves behind: `socket.h` 66-78, `openssl_socket.h` 70-87, 338-356. -/
def Obj.movedFrom (x : Obj) : Obj :=
  match x.cls with
  | .tlsClient => { x with fd := none, ctx := none, ssl := none }
  | .tlsServer => { x with fd := none, ctx := none }
  | _ => { x with fd := none }

/-- `connect_handshake`, `openssl_socket.h` 250-283.  `none` is undefined behaviour: lines 269, 271
and 275 call `log_local->put_any` without asking whether there is a log. -/
def connectHandshake (k : Kernel) (o : Ossl) (x : Obj) (sh : Shake) : Option (Ossl × Bool) :=
  match x.fd with
  | none => some (o, false)
  | some _ =>
    match x.ssl with
    | none => some (o, false)
    | some s =>
      let o := o.setFd s x.fd sh.setFd
      if sh.setFd then
        if x.log then some (o.handshake k s sh.connect, sh.connect) else none
      else some (o, false)

/-- `client_socket::connect`, `socket.h` 338-346. -/
def clientConnect (k : Kernel) (x : Obj) (sock : Option Nat) (dst : Where) : Kernel × Obj × Bool :=
  match dst with
  | .host hosts => tieHost k x .connect sock hosts
  | .address r => tieAddress k x sock r

/-- `openssl_tcp_client_socket(fd, ctx, ...)` and `SSL_accept`, `openssl_socket.h` 91-112, 378-392.
The result is the accepted object, or `none` for an exception.  If `SSL_new` or `SSL_set_fd` fails
the constructor throws: the base class closes the descriptor, and nothing frees the `SSL`.  If
`SSL_accept` fails the local object is destroyed. -/
def tlsAccept (k : Kernel) (o : Ossl) (server : Obj) (d : Desc) (ssl setFd shake : Bool) :
    Kernel × Ossl × Option Obj :=
  let x : Obj := ⟨.tlsClient, server.log, some d, none, none⟩
  match o.sslNew server.ctx ssl with
  | (o, none) => ((closeSock k x).1, o, none)
  | (o, some s) =>
    let x := { x with ssl := some s }
    let o := o.setFd s (some d) setFd
    if setFd then
      let o := o.handshake k s shake
      if shake then (k, o, some x)
      else
        let (k, o) := destroyObj k o x
        (k, o, none)
    else ((closeSock k x).1, o, none)

def thrownIf (ok : Bool) : Out := if ok then .done else .thrown

/-- One operation. -/
def step (w : World) : Op → World × Out
  | .new cls log =>
    -- `socket.h` 39-62, 443-469
    match cls with
    | .udp | .tcpClient | .tcpServer => (w.add ⟨cls, log, none, none, none⟩, .done)
    | _ => (w, .none)
  | .newTlsClient log ctx ssl =>
    -- `openssl_socket.h` 38-66; an exception after line 51 leaves the context behind
    match w.o.ctxNew ctx with
    | (o, none) => ({ w with o := o }, .thrown)
    | (o, some c) =>
      match o.sslNew (some c) ssl with
      | (o, none) => ({ w with o := o }, .thrown)
      | (o, some s) => ({ w with o := o }.add ⟨.tlsClient, log, none, some c, some s⟩, .done)
  | .newTlsServer log ctx cert key =>
    -- `openssl_socket.h` 290-334; an exception after line 311 leaves the context behind
    match w.o.ctxNew ctx with
    | (o, none) => ({ w with o := o }, .thrown)
    | (o, some c) =>
      if cert && key then ({ w with o := o }.add ⟨.tlsServer, log, none, some c, none⟩, .done)
      else ({ w with o := o }, .thrown)
  | .move i =>
    match w.get i with
    | none => (w, .none)
    | some x => ((w.put i (some x.movedFrom)).add x, .done)
  | .destroy i =>
    match w.get i with
    | none => (w, .none)
    | some x =>
      let (k, o) := destroyObj w.k w.o x
      ({ w with k := k, o := o }.put i none, .done)
  | .close i =>
    match w.get i with
    | none => (w, .none)
    | some x =>
      let (k, x) := closeSock w.k x
      ({ w with k := k }.put i (some x), .done)
  | .bind i sock hosts =>
    -- `socket.h` 146-154
    match w.get i with
    | none => (w, .none)
    | some x =>
      let (k, x, ok) := tieHost w.k x .bind sock hosts
      ({ w with k := k }.put i (some x), thrownIf ok)
  | .connect i sock dst sh =>
    match w.get i with
    | none => (w, .none)
    | some x =>
      if x.cls.isClient then
        let (k, x, ok) := clientConnect w.k x sock dst
        let w := { w with k := k }.put i (some x)
        if x.cls = .tlsClient ∧ ok = true then
          -- `openssl_socket.h` 140-168
          match connectHandshake k w.o x sh with
          | none => (w, .ub)
          | some (o, ok) => ({ w with o := o }, thrownIf ok)
        else (w, thrownIf ok)
      else (w, .none)
  | .listen i ok =>
    -- `socket.h` 473-488
    match w.get i with
    | none => (w, .none)
    | some x =>
      if x.cls.isClient then (w, .none)
      else ({ w with k := useFd w.k x }, thrownIf (ok && x.fd.isSome))
  | .accept i fd ssl setFd shake =>
    -- `socket.h` 492-517, `openssl_socket.h` 378-392
    match w.get i with
    | none => (w, .none)
    | some x =>
      if x.cls.isClient then (w, .none)
      else
        let k := useFd w.k x
        match k.fresh (if x.fd.isSome then fd else none) with
        | (k, none) => ({ w with k := k }, .thrown)
        | (k, some d) =>
          if x.cls = .tlsServer then
            match tlsAccept k w.o x d ssl setFd shake with
            | (k, o, none) => ({ w with k := k, o := o }, .thrown)
            | (k, o, some y) => ({ w with k := k, o := o }.add y, .done)
          else ({ w with k := k }.add ⟨.tcpClient, x.log, some d, none, none⟩, .done)
  | .transfer i address n =>
    -- `socket.h` 350-436, `openssl_socket.h` 172-246
    match w.get i with
    | none => (w, .none)
    | some x =>
      if x.cls.isClient then
        match x.fd with
        | none => (w, .thrown)
        | some d =>
          if x.cls = .tlsClient then
            if address then (w, .none)
            else
              match x.ssl with
              | none => (w, .thrown)
              | some s =>
                ({ w with o := w.o.transfer w.k s },
                  .count (match w.o.find s, n with
                    | some r, some n => if r.ready then n else 0
                    | _, _ => 0))
          else if address && x.cls ≠ .udp then (w, .thrown)
          else ({ w with k := w.k.use d }, .count (n.getD 0))
      else (w, .none)

/-- A program: the operations one after the other, until one of them is undefined behaviour. -/
def run (w : World) : List Op → World
  | [] => w
  | op :: ops =>
    match step w op with
    | (w', .ub) => w'
    | (w', _) => run w' ops

end Abc.Resource

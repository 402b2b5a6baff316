import Verif.Model.Server
/-
Model of the life of the connections of the HTTP server: /repo/src/server.cc:64-123.

The sockets, the timer and the io_context (boost asio, boost beast) are modelled by what they promise: an asynchronous operation
that was started is waiting until it is complete, then its handler is ready and one of the threads running the io_context calls it;
closing a socket makes its operations complete with an error; cancelling a timer makes a waiting wait complete as cancelled, and has
no effect on one that is complete or was not started.  The request is a value (the parser of beast is not modelled: an unreadable
request is a read error).  A handler is one action; only `start()` is two (`async_read`, then `check_deadline`), because another
thread can run the handler of the read in between.  Time is counted in seconds.  SIGINT and SIGTERM (server.cc:132-134) are not modelled.
-/
namespace Tiles

/-- an asynchronous operation: not started, started, complete with a result (its handler can be called), handler called -/
inductive Op (α : Type) where
  | idle | waiting | ready (a : α) | done
  deriving Repr

/-- a started operation holds the `shared_ptr` to its connection (`[self]`) until its handler has run -/
def Op.holds {α : Type} : Op α → Nat
  | .waiting | .ready _ => 1
  | _ => 0

/-- server.cc:64-113 `http_connection` -/
structure Conn where
  client : Nat
  expiry : Nat                    -- of `deadline_`
  read : Op (Option Req)          -- `none` = error
  write : Op Bool                 -- false = error
  wait : Op Bool                  -- of `deadline_`; false = cancelled
  response : Option Resp          -- `response_`, once it is filled
  isOpen : Bool                   -- `socket_` was not closed
  deriving Repr

/-- what can be seen from outside of one connection -/
inductive ConnEv where
  | request (r : Req)             -- a request arrived
  | response (r : Resp)           -- this response was handed to the socket
  | sent                          -- all of it was sent
  | finished                      -- `shutdown_send`
  | closed                        -- `close` by the deadline
  deriving Repr

/-- server.cc:65-66, 112: the constructor; the deadline counts from here -/
def newConn (client now : Nat) : Conn := ⟨client, now + 60, .idle, .idle, .idle, none, true⟩

/-- `deadline_.cancel()` -/
def cancelWait : Op Bool → Op Bool
  | .waiting => .ready false
  | w => w

inductive ConnAct where
  | arrive (r : Req)              -- the client's request is complete
  | readFail                      -- the client closes or sends something else; or the socket was closed
  | onRead                        -- the handler of `async_read`
  | writeOk | writeFail           -- the response is sent; or not
  | onWrite                       -- the handler of `async_write`
  | expire                        -- the deadline passes
  | onWait                        -- the handler of `async_wait`
  deriving Repr

/-- server.cc:68-105: the actions of one connection -/
def connStep (env : ServerEnv) (now : Nat) (c : Conn) : ConnAct → Option (Conn × List ConnEv)
  | .arrive r => match c.read, c.isOpen with
    | .waiting, true => some ({ c with read := .ready (some r) }, [.request r])
    | _, _ => none
  | .readFail => match c.read with
    | .waiting => some ({ c with read := .ready none }, [])
    | _ => none
  | .onRead => match c.read with       -- server.cc:71-94
    | .ready (some r) => match handleRequest env r with
      | .ok resp => some ({ c with read := .done, response := some resp, write := .waiting }, [.response resp])
      | _ => none
    | .ready none => some ({ c with read := .done }, [])
    | _ => none
  | .writeOk => match c.write, c.isOpen with
    | .waiting, true => some ({ c with write := .ready true }, [.sent])
    | _, _ => none
  | .writeFail => match c.write with
    | .waiting => some ({ c with write := .ready false }, [])
    | _ => none
  | .onWrite => match c.write with     -- server.cc:88-92
    | .ready _ => some ({ c with write := .done, wait := cancelWait c.wait }, if c.isOpen then [.finished] else [])
    | _ => none
  | .expire => match c.wait with
    | .waiting => if c.expiry ≤ now then some ({ c with wait := .ready true }, []) else none
    | _ => none
  | .onWait => match c.wait with       -- server.cc:100-104
    | .ready true => some ({ c with wait := .done, isOpen := false }, [.closed])
    | .ready false => some ({ c with wait := .done }, [])
    | _ => none

/-- the `async_accept` of server.cc:117: waiting; complete with a client or with an error; its handler is inside of
`start()` of connection `k`, before or after line 94 -/
inductive Accept where
  | waiting
  | ready (client : Option Nat)
  | starting (k : Nat)
  | reading (k : Nat)
  deriving DecidableEq, Repr

/-- the server: the connections are numbered in the order in which they were accepted -/
structure Http where
  now : Nat
  accept : Accept
  conns : List Conn
  log : List (Nat × ConnEv)
  deriving Repr

/-- server.cc:130: the first `async_accept` -/
def httpInit : Http := ⟨0, .waiting, [], []⟩

inductive HttpAct where
  | tick
  | connect (client : Nat)        -- a client connects
  | acceptFail                    -- the system refuses to accept
  | onAccept                      -- the handler of `async_accept`, up to `->start()`
  | startRead                     -- server.cc:69-94
  | startWait                     -- server.cc:95, and 121: the next `async_accept`
  | conn (k : Nat) (a : ConnAct)
  deriving Repr

/-- server.cc:115-123 `http_server` and the actions of the connections -/
def httpStep (env : ServerEnv) (s : Http) : HttpAct → Option Http
  | .tick => some { s with now := s.now + 1 }
  | .connect client => match s.accept with
    | .waiting => some { s with accept := .ready (some client) }
    | _ => none
  | .acceptFail => match s.accept with
    | .waiting => some { s with accept := .ready none }
    | _ => none
  | .onAccept => match s.accept with
    | .ready (some client) => some { s with accept := .starting s.conns.length, conns := s.conns ++ [newConn client s.now] }
    | .ready none => some { s with accept := .waiting }
    | _ => none
  | .startRead => match s.accept with
    | .starting k => match s.conns[k]? with
      | some c => some { s with accept := .reading k, conns := s.conns.set k { c with read := .waiting } }
      | none => none
    | _ => none
  | .startWait => match s.accept with
    | .reading k => match s.conns[k]? with
      | some c => some { s with accept := .waiting, conns := s.conns.set k { c with wait := .waiting } }
      | none => none
    | _ => none
  | .conn k a => match s.conns[k]? with
    | some c => match connStep env s.now c a with
      | some (c', evs) => some { s with conns := s.conns.set k c', log := s.log ++ evs.map (k, ·) }
      | none => none
    | none => none

/-- the states the server can get to -/
inductive HttpReach (env : ServerEnv) : Http → Http → Prop
  | refl (s : Http) : HttpReach env s s
  | step {s t u : Http} (a : HttpAct) : HttpReach env s t → httpStep env t a = some u → HttpReach env s u

/-- the number of `shared_ptr`s to connection `k`: operations under way, and `start()` itself -/
def Http.holders (s : Http) (k : Nat) : Nat :=
  (match s.conns[k]? with
    | some c => c.read.holds + c.write.holds + c.wait.holds
    | none => 0) +
  (match s.accept with
    | .starting j | .reading j => if j = k then 1 else 0
    | _ => 0)

/-- actions of the server itself, as opposed to those of a client, of the network or of the clock: handlers, the deadline, and
the completion of operations on a socket that was closed -/
def Http.isServer (s : Http) : HttpAct → Bool
  | .onAccept | .startRead | .startWait => true
  | .conn _ .onRead | .conn _ .onWrite | .conn _ .onWait | .conn _ .expire => true
  | .conn k .readFail | .conn k .writeFail => match s.conns[k]? with
    | some c => !c.isOpen
    | none => false
  | _ => false

end Tiles

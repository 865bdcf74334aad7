import Verif.Spec.ClientRun
import Verif.Spec.Reply
/-!
# What a client reports about a response it receives (C39, C56)
-/
namespace Pillow.Spec
open Pillow

/-- The signals and requests in a log that do not concern pieces of content. -/
def signals (l : List CEv) : List CEv := l.filter fun | .headersCompleted .. | .finished .. | .accepted _ => true | _ => false

/-- The content the application has taken with `consumeContent()`, in order. -/
def taken (l : List CEv) : Bytes := (l.map fun | .consumed bs => bs | _ => []).flatten

/-- The content `all` was announced: every `contentReadyRead()` shows a beginning of it (together with what was taken before), one of them shows all of
it, unless it is empty, and content is only shown after `headersCompleted()`. -/
def Announced (l : List CEv) (all : Bytes) : Prop :=
  (∀ l₁ ct l₂, l = l₁ ++ .contentReadyRead ct :: l₂ → taken l₁ ++ ct <+: all) ∧
  (all ≠ [] → ∃ l₁ ct l₂, l = l₁ ++ .contentReadyRead ct :: l₂ ∧ taken l₁ ++ ct = all) ∧
  (∀ l₁ ct l₂, l = l₁ ++ .contentReadyRead ct :: l₂ → taken l₁ ++ ct ≠ [] → ∃ st hs, .headersCompleted st hs ∈ l₁)

/-- What a decoder returns for blocks that are passed to it one after the other. -/
def unzipped (inflate : List Bytes → Bytes) (blocks : List Bytes) : Bytes := ((List.range blocks.length).map fun i => inflate (blocks.take (i + 1))).flatten

/-- `Content-Encoding: gzip`. -/
def Gzipped (hs : Headers) : Prop := ∃ h ∈ hs, SameCI h.name b!"content-encoding" ∧ SameCI h.value b!"gzip"

/-- What the application gets for the content of a response: the content itself, or, if it is compressed and the library was built with zlib, what zlib makes of
it, in whatever (non-empty) blocks it comes in. Nothing is decoded if the request was HEAD (`hd`). -/
def Shown (env : ClientEnv) (hd : Prop) (m : Response) (all : Bytes) : Prop :=
  (Gzipped m.head.shown ∧ ¬ hd → ∀ inflate, env.inflate = some inflate → ∃ blocks : List Bytes, [] ∉ blocks ∧ blocks.flatten = m.content ∧ all = unzipped inflate blocks) ∧
  (¬ Gzipped m.head.shown ∨ env.inflate = none ∨ hd → all = m.content)

/-- A `100 Continue`. -/
structure Interim (m : Response) : Prop where
  wf : m.Wf
  status : num m.head.status = 100
  empty : m.content = []

/-- Calls that do not interfere with a pending request. -/
def UserCall.Calm : UserCall → Prop
  | .abort | .setReadBufferSize _ => False
  | _ => True

def Calm (scripts : List (List UserCall)) : Prop := ∀ calls ∈ scripts, ∀ u ∈ calls, UserCall.Calm u

/-- What may happen besides the arrival of data. -/
def Harmless : CInput → Prop
  | .call u => UserCall.Calm u
  | .readyRead | .timeout | .tick _ | .unsent _ | .connected => True
  | _ => False

/-- The segments arrive one after the other, with other things happening in between and afterwards. -/
inductive Arrive : List Bytes → List CInput → Prop where
  | nil : Arrive [] []
  | segment {segs : List Bytes} {inputs : List CInput} (s : Bytes) : Arrive segs inputs → Arrive (s :: segs) (.arrive s :: .readyRead :: inputs)
  | other {segs : List Bytes} {inputs : List CInput} (i : CInput) : Harmless i → Arrive segs inputs → Arrive segs (i :: inputs)

/-- `m` is a response to the request `r`: a well-formed one, or, if the request is HEAD, one that ends after its headers, whatever length they announce. -/
def Answers (r : ClientRequest) (m : Response) : Prop := (¬ IsHead r → m.Wf) ∧ (IsHead r → m.head.Wf ∧ m.wire = [] ∧ m.content = [])

/-- The client has made a request and is connected; the read buffer is not limited, and the application neither aborts nor limits it while it handles
`headersCompleted()` and `contentReadyRead()`. -/
structure Awaiting (c : Client) : Prop where
  pending : c.responsePending = true
  connected : c.sock.state = .connected
  unlimited : c.sock.readBufferSize = 0
  onHeaders : Calm c.onHeaders
  onContent : Calm c.onContent

/-- No segment contains the end of an interim response, the whole next one, and more: between (or at) the ends of two consecutive ones there is an end of a
segment. -/
def Divided (interims : List Response) (segs : List Bytes) : Prop :=
  ∀ before m₁ m₂ after, interims = before ++ m₁ :: m₂ :: after → ∃ a b, segs = a ++ b ∧
    ((before ++ [m₁]).map Response.render).flatten.length ≤ a.flatten.length ∧ a.flatten.length ≤ ((before ++ [m₁, m₂]).map Response.render).flatten.length

/-- What a server sends in answer to the request `r`: any number of `100 Continue`, and one other response; it arrives in the segments `segs`, with other things
happening in between and afterwards. -/
structure Replied (r : ClientRequest) (interims : List Response) (m : Response) (segs : List Bytes) (inputs : List CInput) : Prop where
  continues : ∀ i ∈ interims, Interim i
  answers : Answers r m
  final : num m.head.status ≠ 100
  arrive : Arrive segs inputs
  whole : segs.flatten = (interims.map Response.render).flatten ++ m.render
  divided : Divided interims segs

/-- The bytes that arrive. -/
def incoming (inputs : List CInput) : Bytes := (inputs.map fun | .arrive bs => bs | _ => []).flatten

/-- Anything but an abort, an error or the end of the connection. -/
def Steady : CInput → Prop
  | .call u => u ≠ .abort
  | .error _ | .disconnected => False
  | _ => True

/-- The client has made a request and is connected, and the application does not abort while it handles `headersCompleted()` and `contentReadyRead()`. -/
structure Expecting (c : Client) : Prop where
  pending : c.responsePending = true
  connected : c.sock.state = .connected
  onHeaders : ∀ calls ∈ c.onHeaders, .abort ∉ calls
  onContent : ∀ calls ∈ c.onContent, .abort ∉ calls

/-- The answer to the request `r` arrives, with at most one `100 Continue` before it; what else happens, when the client reads, and how large its read buffer is at
any time, is left open. -/
structure Paced (r : ClientRequest) (interims : List Response) (m : Response) (inputs : List CInput) : Prop where
  continues : ∀ i ∈ interims, Interim i
  few : interims.length ≤ 1
  answers : Answers r m
  final : num m.head.status ≠ 100
  steady : ∀ i ∈ inputs, Steady i
  whole : incoming inputs = (interims.map Response.render).flatten ++ m.render

/-- A response that ends with the connection arrives in answer to the request `r`: all there will be of it, with the content `content`. -/
structure Lasts (r : ClientRequest) (h : RHead) (content : Bytes) (inputs : List CInput) : Prop where
  get : ¬ IsHead r
  wf : h.Wf
  ends : EndsWithConnection h
  final : num h.status ≠ 100
  steady : ∀ i ∈ inputs, Steady i
  whole : incoming inputs = h.render ++ content

/-- The status line, with its line end. -/
def RHead.statusLine (h : RHead) : Bytes := b!"HTTP/" ++ h.major ++ b!"." ++ h.minor ++ b!" " ++ h.status ++ h.reason ++ b!"\r\n"

/-- A beginning of a response to the request `r` arrives, with the head `h`: at most the head and `body`, and `body` is not all there is to come. -/
structure Begins (r : ClientRequest) (h : RHead) (body : Bytes) (inputs : List CInput) : Prop where
  get : ¬ IsHead r
  wf : h.Wf
  final : num h.status ≠ 100
  more : EndsWithConnection h ∨ ∃ wire content more, BodyOf h wire content ∧ wire = body ++ more ∧ more ≠ []
  steady : ∀ i ∈ inputs, Steady i
  whole : incoming inputs <+: h.render ++ body

/-- The failure of a request: the connection breaks, or the application aborts. -/
def Failure : CInput → Prop
  | .error _ => True
  | .call u => u = .abort
  | _ => False

/-- The error that a failure is reported as. -/
def errorOf : CInput → CError
  | .error true => .remoteHostClosed
  | .error false => .network
  | _ => .aborted

/-- `n` bytes of a response with the head `h` are not in the middle of its headers. -/
def OutsideHeaders (h : RHead) (n : Nat) : Prop := n ≤ h.statusLine.length ∨ h.render.length ≤ n

/-- A beginning of the answer to the request `r` arrives, or all of it: at most one `100 Continue`, and the other response. -/
structure Begun (r : ClientRequest) (interims : List Response) (m : Response) (inputs : List CInput) : Prop where
  continues : ∀ i ∈ interims, Interim i
  few : interims.length ≤ 1
  answers : Answers r m
  final : num m.head.status ≠ 100
  steady : ∀ i ∈ inputs, Steady i
  begins : incoming inputs <+: (interims.map Response.render).flatten ++ m.render

/-- `n` bytes of an answer, the responses `interims` and then one with the head `h`, are not in the middle of the headers of one of them. -/
def Outside : List Response → RHead → Nat → Prop
  | [], h, n => OutsideHeaders h n
  | i :: is, h, n => n ≤ i.head.statusLine.length ∨ (i.render.length ≤ n ∧ Outside is h (n - i.render.length))

/-- `n` bytes of an answer to the request `r` are not in the middle of compressed content that the client decodes. -/
def Uncompressed (env : ClientEnv) (r : ClientRequest) (interims : List Response) (h : RHead) (n : Nat) : Prop :=
  IsHead r ∨ ¬ Gzipped h.shown ∨ env.inflate = none ∨ n < (interims.map Response.render).flatten.length + h.render.length

/-- The clients that have only ever been sent well-formed answers to their requests, whatever else has happened: calls, connections and errors of
connections in any order. The answers were complete, or the request failed while the client was not reading headers or compressed content. (After any other
data, the next response may be reported wrongly: see `C36_violation`, `C71_header_violation` and `C71_gzip_violation`.) -/
inductive WellServed (env : ClientEnv) (fuel : Nat) : Client → Prop where
  | new (onHeaders onContent onFinished : List (List UserCall)) (onConnect : List SockReply) : WellServed env fuel (Client.new onHeaders onContent onFinished onConnect)
  | other {c : Client} (i : CInput) : (∀ bs, i ≠ .arrive bs) → WellServed env fuel c → WellServed env fuel (c.step env fuel i)
  | response {c : Client} {interims : List Response} {m : Response} {segs : List Bytes} {inputs : List CInput} :
      WellServed env fuel c → Awaiting c → Replied c.request interims m segs inputs → WellServed env fuel (c.run env fuel inputs)
  | paced {c : Client} {interims : List Response} {m : Response} {inputs : List CInput} :
      WellServed env fuel c → Expecting c → Paced c.request interims m inputs → (c.run env fuel inputs).sock.rx = [] → WellServed env fuel (c.run env fuel inputs)
  | closed {c : Client} {h : RHead} {content : Bytes} {inputs : List CInput} (remoteClosed : Bool) :
      WellServed env fuel c → Expecting c → Lasts c.request h content inputs → (¬ Gzipped h.shown ∨ env.inflate = none) → (c.run env fuel inputs).sock.rx = [] →
      WellServed env fuel (c.run env fuel (inputs ++ [.error remoteClosed]))
  | failed {c : Client} {h : RHead} {body : Bytes} {inputs : List CInput} (i : CInput) :
      WellServed env fuel c → Expecting c → Begins c.request h body inputs → (¬ Gzipped h.shown ∨ env.inflate = none) →
      OutsideHeaders h ((incoming inputs).length - (c.run env fuel inputs).sock.rx.length) → Failure i → WellServed env fuel (c.run env fuel (inputs ++ [i]))
  | broken {c : Client} {interims : List Response} {m : Response} {inputs : List CInput} {n : Nat} (i : CInput) :
      WellServed env fuel c → Expecting c → Begun c.request interims m inputs → n = (incoming inputs).length - (c.run env fuel inputs).sock.rx.length →
      Outside interims m.head n → Uncompressed env c.request interims m.head n → Failure i → WellServed env fuel (c.run env fuel (inputs ++ [i]))

/-- The client reports the response `m`: `headersCompleted()` once, with its status and headers, then `finished()` with no error and the same, and what the
application has taken of the content and what is left of it are the whole content (`hd` tells whether the request was HEAD). -/
def Reports (env : ClientEnv) (hd : Prop) (before log : List CEv) (m : Response) : Prop :=
  ∃ l₁ ct l₂ all, log = before ++ l₁ ++ .finished .noError (num m.head.status) m.head.shown ct :: l₂ ∧
    signals l₁ = [.headersCompleted (num m.head.status) m.head.shown] ∧ taken l₁ ++ ct = all ∧ Announced l₁ all ∧ Shown env hd m all

end Pillow.Spec

import Verif.Lemmas.Stream
import Verif.Spec.Protocol
set_option linter.unusedSimpArgs false
set_option linter.unusedVariables false
/-!
# The invariant of a connection in a gentle environment
-/
namespace Pillow
open Spec

variable {lo : Bool}

/-! ### logs -/

theorem epoch_snoc (log : List Ev) (e : Ev) : epoch (log ++ [e]) = if e = .init then [] else epoch log ++ [e] := by
  simp [epoch, List.foldl_append]

theorem received_snoc (l : List Ev) (e : Ev) : received (l ++ [e]) = received l ++ Ev.bytesIn e := by
  simp [received]

theorem readys_snoc (l : List Ev) (e : Ev) : readys (l ++ [e]) = readys l ++ (Ev.request e).toList := by
  unfold readys
  rw [List.filterMap_append]
  cases h : Ev.request e <;> simp [List.filterMap, h]

/-- The requests handled so far and what is left; no error reply yet. -/
structure Hist (log : List Ev) (reqs : List (ReqHead × Bytes)) (rest : Bytes) : Prop where
  stream : Requests (received (epoch log)) reqs rest
  ready : readys (epoch log) = shownAll reqs
  noErr : ∀ code, Ev.errorReply code ∉ epoch log

/-- The same, with error replies that are justified. -/
def Weak (log : List Ev) : Prop :=
  ∃ reqs rest, Requests (received (epoch log)) reqs rest ∧ readys (epoch log) = shownAll reqs ∧
    ∀ code, Ev.errorReply code ∈ epoch log → ErrorReason code rest

theorem Hist.weak {log reqs rest} (h : Hist log reqs rest) : Weak log :=
  ⟨reqs, rest, h.stream, h.ready, fun code hc => absurd hc (h.noErr code)⟩

/-- Events that do not concern the request stream. -/
def Ev.neutral : Ev → Prop
  | .init | .recv _ | .ready _ | .errorReply _ => False
  | _ => True

theorem neutral_epoch {e : Ev} (h : e.neutral) (log : List Ev) : epoch (log ++ [e]) = epoch log ++ [e] ∧
    received (epoch (log ++ [e])) = received (epoch log) ∧ readys (epoch (log ++ [e])) = readys (epoch log) ∧
    ∀ code, Ev.errorReply code ∈ epoch (log ++ [e]) ↔ Ev.errorReply code ∈ epoch log := by
  have hne : e ≠ .init := by rintro rfl; exact h
  rw [epoch_snoc, if_neg hne, received_snoc, readys_snoc]
  refine ⟨rfl, ?_, ?_, ?_⟩
  · cases e <;> simp_all [Ev.bytesIn, Ev.neutral]
  · cases e <;> simp_all [Ev.request, Ev.neutral]
  · intro code
    cases e <;> simp_all [Ev.neutral]

theorem Hist.neutral {log reqs rest e} (h : Hist log reqs rest) (he : Ev.neutral e) : Hist (log ++ [e]) reqs rest := by
  obtain ⟨-, h2, h3, h4⟩ := neutral_epoch he log
  exact ⟨h2 ▸ h.stream, h3 ▸ h.ready, fun code => by rw [h4]; exact h.noErr code⟩

theorem weak_neutral {log : List Ev} {e : Ev} (h : Weak log) (he : Ev.neutral e) : Weak (log ++ [e]) := by
  obtain ⟨-, h2, h3, h4⟩ := neutral_epoch he log
  obtain ⟨reqs, rest, w1, w2, w3⟩ := h
  exact ⟨reqs, rest, h2 ▸ w1, h3 ▸ w2, fun code hc => w3 code ((h4 code).1 hc)⟩

theorem Hist.recv {log reqs rest} (h : Hist log reqs rest) (bs : Bytes) : Hist (log ++ [.recv bs]) reqs (rest ++ bs) := by
  constructor
  · rw [epoch_snoc, if_neg (by simp), received_snoc]; exact Requests.append_rest h.stream bs
  · rw [epoch_snoc, if_neg (by simp), readys_snoc, h.ready]; simp [Ev.request]
  · intro code; rw [epoch_snoc, if_neg (by simp)]; simp [h.noErr code]

theorem weak_recv {log : List Ev} (h : Weak log) (bs : Bytes) : Weak (log ++ [.recv bs]) := by
  obtain ⟨reqs, rest, w1, w2, w3⟩ := h
  refine ⟨reqs, rest ++ bs, ?_, ?_, ?_⟩
  · rw [epoch_snoc, if_neg (by simp), received_snoc]; exact Requests.append_rest w1 bs
  · rw [epoch_snoc, if_neg (by simp), readys_snoc, w2]; simp [Ev.request]
  · intro code hc
    rw [epoch_snoc, if_neg (by simp)] at hc
    simp at hc
    exact errorReason_append (w3 code hc) bs

theorem Hist.readyEv {log reqs rest} (h : Hist log reqs rest) (hd : ReqHead) (content rest' : Bytes)
    (he : rest = hd.render ++ content ++ rest') (ha : Acceptable hd content.length) :
    Hist (log ++ [.ready (hd.shown content)]) (reqs ++ [(hd, content)]) rest' := by
  constructor
  · rw [epoch_snoc, if_neg (by simp), received_snoc]
    simp only [Ev.bytesIn, List.append_nil]
    exact Requests.snoc hd content rest' h.stream he ha
  · rw [epoch_snoc, if_neg (by simp), readys_snoc, h.ready]; simp [Ev.request, shownAll]
  · intro code; rw [epoch_snoc, if_neg (by simp)]; simp [h.noErr code]

theorem Hist.errorEv {log reqs rest} (h : Hist log reqs rest) (code : Int) (hr : ErrorReason code rest) :
    Weak (log ++ [.errorReply code]) := by
  refine ⟨reqs, rest, ?_, ?_, ?_⟩
  · rw [epoch_snoc, if_neg (by simp), received_snoc]; simpa [Ev.bytesIn] using h.stream
  · rw [epoch_snoc, if_neg (by simp), readys_snoc, h.ready]; simp [Ev.request]
  · intro code' hc
    rw [epoch_snoc, if_neg (by simp)] at hc
    simp [h.noErr code'] at hc
    exact hc ▸ hr

theorem weak_init (log : List Ev) : Hist (log ++ [.init]) [] [] := by
  constructor
  · rw [epoch_snoc, if_pos rfl]; exact .nil _
  · rw [epoch_snoc, if_pos rfl]; rfl
  · intro code; rw [epoch_snoc, if_pos rfl]; simp

/-! ### stack frames -/

/-- What may be on the stack below the top. -/
def Instr.frame : Instr → Bool
  | .env | .sendContentRest | .writeResponseRest _ | .completedRest | .completedRest2 | .drainRest | .flushingRest
  | .closedRest => true
  | _ => false

/-- Continuations that change the state of the connection. -/
def Instr.sens : Instr → Bool
  | .completedRest | .completedRest2 | .drainRest | .flushingRest | .closedRest => true
  | _ => false

def sensOk (st : CState) (vv : Bool) (top : Option Instr) (l : List Instr) : Prop :=
  if top = some .flushing then l = [] else
  match st with
  | .completed => l = [if vv then .completedRest else .completedRest2]
  | .flushing => ∀ i ∈ l, i = .drainRest ∨ i = .flushingRest
  | .closed => ∀ i ∈ l, i = .drainRest ∨ i = .flushingRest ∨ i = .closedRest
  | _ => l = []

/-! ### data -/

def Conn.inp (c : Conn) : Bytes := unread c

/-- Receiving headers. -/
def RecvH (c : Conn) (strict : Bool) : Prop :=
  ∃ reqs s0 n, Hist c.log reqs (c.buf ++ c.inp) ∧ n ≤ c.buf.length ∧ Live s0 (c.buf.take n) ∧
    c.parser = s0.init.execute (c.buf.take n) 0 ∧ c.refs = c.parser.fields ∧ c.clen = 0 ∧
    (strict = true → n = c.buf.length ∧ n ≤ headLimit + 1)

/-- A complete head is in the buffer. -/
structure HeadIn (c : Conn) (reqs : List (ReqHead × Bytes)) (h : ReqHead) (tail : Bytes) : Prop where
  hist : Hist c.log reqs (h.render ++ tail ++ c.inp)
  wf : h.Wf
  short : h.render.length ≤ headLimit
  parser : IsHeadParser h c.parser
  buf : HeadBuf h c.parser tail c.buf
  refs : c.refs = c.parser.fields

def expects (h : ReqHead) : Bool :=
  asciiEqualsCILower (getFieldValueTok (h.headers.map fun l => ⟨l.name, l.value⟩) b!"expect") b!"100-continue"

/-- Receiving content. -/
structure RecvC (c : Conn) (ph : Phase) (reqs : List (ReqHead × Bytes)) (h : ReqHead) (tail : Bytes) (n : Nat) : Prop where
  head : HeadIn c reqs h tail
  announced : announcedLength h = some (n : Int)
  small : (n : Int) ≤ contentLimit
  clen : c.clen = n
  phase : ph = .recv (decide (0 < n) && expects h)

/-- The request is with the handler. -/
def Busy (c : Conn) : Prop :=
  ∃ reqs tail, Hist c.log reqs (tail ++ c.inp) ∧ (c.buf.length : Int) - c.parser.bodyStart - c.clen = tail.length ∧
    c.buf.drop (c.buf.length - tail.length) = tail

/-- The request has been dropped from the buffer. -/
def Dropped (c : Conn) : Prop := ∃ reqs, Hist c.log reqs (c.buf ++ c.inp) ∧ c.refs = []

/-- The response state agrees with the head that was sent. -/
structure Resp (c : Conn) (h : RespHead) (n : Nat) : Prop where
  len : c.respLen = h.len
  chunked : c.chunked = h.chunked
  keep : c.keepAlive = h.keepAlive
  sent : c.sent = n
  delim : h.keepAlive = true → 0 ≤ h.len ∨ h.chunked = true
  chunkLen : h.chunked = true → h.len = -1

/-- States in which nothing is about to be executed that depends on more than the state. -/
def Settled (strict : Bool) (c : Conn) (ph : Phase) : Prop :=
  match c.st with
  | .uninitialized => ph = .off ∧ Weak c.log
  | .receivingHeaders => ph = .recv false ∧ RecvH c strict
  | .receivingContent => ∃ reqs h tail n, RecvC c ph reqs h tail n ∧ 0 < n ∧ (strict = true → tail.length < n)
  | .sendingHeaders => ph = .busy c.req ∧ Busy c ∧ c.http11 = (c.req.version == b!"HTTP/1.1") ∧
      c.chunked = false ∧ c.respLen = -1 ∧ c.viewsValid = true ∧ c.sent = 0
  | .sendingContent => ∃ h n, ph = .sending c.req h n ∧ Resp c h n ∧ Busy c ∧ h.len ≠ 0 ∧ c.req.method ≠ b!"HEAD" ∧
      (0 < h.len → (n : Int) < h.len) ∧ c.viewsValid = true
  | .completed => ph = (if c.keepAlive then .recv false else .flushing) ∧
      (c.keepAlive = true → 0 ≤ c.respLen ∨ c.chunked = true) ∧
      (if c.viewsValid then Busy c else Dropped c ∧ c.keepAlive = true)
  | .flushing => ph = .flushing ∧ Weak c.log
  | .closed => ph = .closed ∧ Weak c.log

/-- What must hold when the given instruction is about to be executed. -/
def Data (c : Conn) (ph : Phase) : Option Instr → Prop
  | some .recvContent => c.st = .receivingHeaders ∧ ph = .recv false ∧ c.clen = 0 ∧ ∃ reqs h tail, HeadIn c reqs h tail
  | some .sendHeaders => c.st = .receivingContent ∧ ∃ reqs h tail n, RecvC c ph reqs h tail n ∧ n ≤ tail.length
  | some (.errorResponse code) => (c.st = .receivingHeaders ∨ c.st = .receivingContent) ∧ ph = .recv false ∧
      ∃ reqs rest, Hist c.log reqs rest ∧ ErrorReason code rest
  | some .sendContent => c.st = .sendingHeaders ∧ Busy c ∧ c.viewsValid = true ∧ ∃ h, Resp c h 0 ∧
      ph = (if h.len = 0 ∨ c.req.method = b!"HEAD" then .ended c.req h else .sending c.req h 0)
  | some .completed => c.st = .sendingContent ∧ Busy c ∧ c.viewsValid = true ∧ ∃ h n, Resp c h n ∧
      (ph = .ended c.req h ∨ (ph = .sending c.req h n ∧ h.len < 0 ∧ h.chunked = false ∧ c.req.method ≠ b!"HEAD"))
  | some .flushing => (c.st = .receivingHeaders ∨ c.st = .receivingContent ∨ c.st = .completed) ∧ ph = .flushing ∧
      Weak c.log
  | some (.closed false) => (c.st = .flushing ∨ c.st = .closed) ∧ Settled true c ph ∧
      (c.st = .flushing → ∃ d, c.dev = some d ∧ d.pending = 0)
  | some (.closed true) => c.st ≠ .completed ∧ Settled true c ph
  | some .processInput => Settled false c ph
  | some (.writeHeaders _ _) => Settled true c ph ∨ (c.st = .sendingHeaders ∧ 0 ≤ c.respLen ∧ Settled true { c with respLen := -1 } ph)
  | _ => Settled true c ph

structure Core (lo : Bool) (c : Conn) (stack : List Instr) : Prop where
  fault : c.fault = none
  frames : ∀ i ∈ stack.tail, i.frame = true
  sens : sensOk c.st c.viewsValid stack.head? (stack.filter Instr.sens)
  dev : c.st ≠ .uninitialized → c.st ≠ .closed → c.dev.isSome = true
  resp : stack.head? ≠ some .sendContent → c.respBuf = []
  data : ∃ ph, Runs lo c.log ph ∧ Data c ph stack.head?

def Inv (lo : Bool) (c : Conn) (stack : List Instr) : Prop :=
  Core lo c stack ∨ (c.fault = some .overflow ∧ Weak c.log ∧ ∃ ph, Runs lo c.log ph)

/-! ### generic steps -/

theorem data_frame {c : Conn} {ph : Phase} {rest : List Instr} (hf : ∀ i ∈ rest, i.frame = true) :
    Data c ph rest.head? ↔ Settled true c ph := by
  cases rest with
  | nil => rfl
  | cons i rest =>
    have := hf i (by simp)
    cases i <;> simp_all [Instr.frame, Data]

theorem head_frame {rest : List Instr} (hf : ∀ i ∈ rest, i.frame = true) :
    rest.head? ≠ some .flushing ∧ rest.head? ≠ some .sendContent ∧ rest.head? ≠ some .processInput := by
  cases rest with
  | nil => simp
  | cons i rest =>
    have := hf i (by simp)
    cases i <;> simp_all [Instr.frame]

theorem settled_weaken {c : Conn} {ph : Phase} (h : Settled true c ph) : Settled false c ph := by
  unfold Settled at *
  split at h <;> simp_all
  · obtain ⟨-, reqs, s0, n, h1, h2, h3, h4, h5, h6, h7⟩ := h
    exact ⟨reqs, s0, n, h1, h2, h3, h4, h5, h6, by simp⟩
  · obtain ⟨reqs, hd, tail, n, h1, h2, h3⟩ := h
    exact ⟨reqs, hd, tail, n, h1, h2⟩

/-- Every state has a justified history. -/
theorem settled_weak {strict : Bool} {c : Conn} {ph : Phase} (h : Settled strict c ph) : Weak c.log := by
  unfold Settled at h
  split at h
  · exact h.2
  · obtain ⟨-, reqs, s0, n, h1, -⟩ := h; exact h1.weak
  · obtain ⟨reqs, hd, tail, n, h1, -⟩ := h; exact h1.head.hist.weak
  · obtain ⟨-, ⟨reqs, tail, h1, -⟩, -⟩ := h; exact h1.weak
  · obtain ⟨hd, n, -, -, ⟨reqs, tail, h1, -⟩, -⟩ := h; exact h1.weak
  · obtain ⟨-, -, h⟩ := h
    split at h
    · obtain ⟨reqs, tail, h1, -⟩ := h; exact h1.weak
    · obtain ⟨⟨reqs, h1, -⟩, -⟩ := h; exact h1.weak
  · exact h.2
  · exact h.2

theorem core_weak {c : Conn} {stack : List Instr} (h : Core lo c stack) : Weak c.log := by
  obtain ⟨ph, -, h⟩ := h.data
  unfold Data at h
  split at h
  · obtain ⟨-, -, -, reqs, hd, tail, h⟩ := h; exact h.hist.weak
  · obtain ⟨-, reqs, hd, tail, n, h, -⟩ := h; exact h.head.hist.weak
  · obtain ⟨-, -, reqs, rest, h, -⟩ := h; exact h.weak
  · obtain ⟨-, ⟨reqs, tail, h, -⟩, -⟩ := h; exact h.weak
  · obtain ⟨-, ⟨reqs, tail, h, -⟩, -⟩ := h; exact h.weak
  · exact h.2.2
  · exact settled_weak h.2.1
  · exact settled_weak h.2
  · exact settled_weak h
  · rcases h with h | ⟨-, -, h⟩
    · exact settled_weak h
    · exact settled_weak (c := { c with respLen := -1 }) h
  · exact settled_weak h

theorem sens_frame {st : CState} {vv : Bool} {rest : List Instr} (hf : ∀ i ∈ rest, i.frame = true) (top : Option Instr)
    (ht : top ≠ some .flushing) (l : List Instr) : sensOk st vv rest.head? l ↔ sensOk st vv top l := by
  unfold sensOk
  rw [if_neg (head_frame hf).1, if_neg ht]

/-- The instruction did nothing. -/
theorem core_skip {c : Conn} {i : Instr} {rest : List Instr} {ph : Phase} (h : Core lo c (i :: rest)) (hs : i.sens = false)
    (hi : i ≠ .flushing) (hi' : i ≠ .sendContent) (hr : Runs lo c.log ph) (hd : Settled true c ph) : Core lo c rest where
  fault := h.fault
  frames := fun j hj => h.frames j (List.mem_of_mem_tail hj)
  sens := by
    have := h.sens
    rw [List.head?_cons, List.filter_cons, if_neg (by simp [hs])] at this
    exact (sens_frame h.frames (some i) (by simpa using hi) _).2 this
  dev := h.dev
  resp := fun _ => h.resp (by simpa using hi')
  data := ⟨ph, hr, (data_frame h.frames).2 hd⟩

end Pillow

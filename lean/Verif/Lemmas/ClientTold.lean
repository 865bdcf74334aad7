import Verif.Lemmas.ClientQuiet
import Verif.Lemmas.ParserSolid
/-!
# The client on well-formed responses: what the application sees
-/
namespace Pillow
open Spec

/-! ## Logs -/

theorem signals_append (a b : List CEv) : signals (a ++ b) = signals a ++ signals b := List.filter_append ..

theorem taken_append (a b : List CEv) : taken (a ++ b) = taken a ++ taken b := by simp [taken]

theorem unzipped_snoc (f : List Bytes → Bytes) (bs : List Bytes) (b : Bytes) : unzipped f (bs ++ [b]) = unzipped f bs ++ f (bs ++ [b]) := by
  unfold unzipped
  rw [List.length_append, List.length_singleton, List.range_succ, List.map_append, List.flatten_append]
  congr 1
  · congr 1
    refine List.map_congr_left fun i hi => ?_
    rw [List.mem_range] at hi
    rw [List.take_append_of_le_length (by omega)]
  · have : (bs ++ [b]).take (bs.length + 1) = bs ++ [b] := List.take_of_length_le (by simp)
    simp [this]

/-- Events that announce no content. -/
def CEv.Still : CEv → Prop
  | .contentReadyRead _ => False
  | _ => True

theorem announced_still {l : List CEv} {all : Bytes} (h : Announced l all) {k : List CEv} (hk : ∀ e ∈ k, e.Still) : Announced (l ++ k) all := by
  constructor
  · intro l1 ct l2 e
    rcases List.append_eq_append_iff.1 e with ⟨a, e1, e2⟩ | ⟨a, e1, e2⟩
    · have := hk (.contentReadyRead ct) (by rw [e2]; simp)
      exact this.elim
    · cases a with
      | nil =>
        have := hk (.contentReadyRead ct) (by rw [List.nil_append] at e2; rw [← e2]; simp)
        exact this.elim
      | cons x a =>
        simp only [List.cons_append, List.cons.injEq] at e2
        rw [← e2.1] at e1
        exact h.1 l1 ct a e1
  refine ⟨fun hn => ?_, fun l1 ct l2 e => ?_⟩
  · obtain ⟨l1, ct, l2, e, ht⟩ := h.2.1 hn
    exact ⟨l1, ct, l2 ++ k, by rw [e]; simp, ht⟩
  · rcases List.append_eq_append_iff.1 e with ⟨a, e1, e2⟩ | ⟨a, e1, e2⟩
    · have := hk (.contentReadyRead ct) (by rw [e2]; simp)
      exact this.elim
    · cases a with
      | nil =>
        have := hk (.contentReadyRead ct) (by rw [List.nil_append] at e2; rw [← e2]; simp)
        exact this.elim
      | cons x a =>
        simp only [List.cons_append, List.cons.injEq] at e2
        rw [← e2.1] at e1
        exact h.2.2 l1 ct a e1

theorem announced_more {l : List CEv} {all ct : Bytes} (h : Announced l all) (x : Bytes) (ht : taken l ++ ct = all ++ x) (ho : taken l ++ ct ≠ [] → ∃ st hs, .headersCompleted st hs ∈ l) : Announced (l ++ [.contentReadyRead ct]) (all ++ x) := by
  constructor
  · intro l1 ct1 l2 e
    rcases List.eq_nil_or_concat l2 with rfl | ⟨l3, z, rfl⟩
    · have e' := List.append_inj_right' e rfl
      have e'' := List.append_inj_left' e rfl
      cases e'
      subst e''
      rw [ht]; exact List.prefix_refl _
    · have : l1 ++ .contentReadyRead ct1 :: (l3.concat z) = (l1 ++ .contentReadyRead ct1 :: l3) ++ [z] := by simp
      rw [this] at e
      have e'' := List.append_inj_left' e rfl
      exact (h.1 l1 ct1 l3 e'').trans (List.prefix_append _ _)
  refine ⟨fun _ => ⟨l, ct, [], rfl, ht⟩, ?_⟩
  intro l1 ct1 l2 e
  rcases List.eq_nil_or_concat l2 with rfl | ⟨l3, z, rfl⟩
  · have e' := List.append_inj_right' e rfl
    have e'' := List.append_inj_left' e rfl
    cases e'
    subst e''
    exact ho
  · have : l1 ++ .contentReadyRead ct1 :: (l3.concat z) = (l1 ++ .contentReadyRead ct1 :: l3) ++ [z] := by simp
    rw [this] at e
    exact h.2.2 l1 ct1 l3 (List.append_inj_left' e rfl)

theorem announced_nil {l : List CEv} (h : ∀ e ∈ l, e.Still) : Announced l [] := by
  have : Announced [] [] := ⟨fun l1 ct l2 e => by simp at e, fun h => absurd rfl h, fun l1 ct l2 e => by simp at e⟩
  exact announced_still this h

/-! ## What the application does in the meantime -/

/-- Calls that do not interfere with a pending request; with `free`, the read buffer may be limited at any time. -/
def UserCall.Mellow (free : Bool) : UserCall → Prop
  | .abort => False
  | .setReadBufferSize _ => free = true
  | _ => True

def Mellow (free : Bool) (scripts : List (List UserCall)) : Prop := ∀ calls ∈ scripts, ∀ u ∈ calls, UserCall.Mellow free u

theorem mellow_calm {u : UserCall} (h : Spec.UserCall.Calm u) (free : Bool) : UserCall.Mellow free u := by
  cases u <;> first | trivial | exact h.elim

theorem Mellow.of_calm {l : List (List UserCall)} (h : Calm l) (free : Bool) : Mellow free l := fun x hx u hu => mellow_calm (h x hx u hu) free

/-- What is given: the record at the beginning, the bytes that have not been read, whether the read buffer may be limited, whether the request is HEAD. -/
structure Setting where
  before : List CEv
  unread : Bytes := []
  free : Bool := false
  head : Bool := false

/-- The application's reactions do not interfere. -/
def CalmApp (free : Bool) (c : Client) : Prop := Mellow free c.onHeaders ∧ Mellow free c.onContent

/-- What calm calls do. -/
structure Mild (free : Bool) (c c' : Client) : Prop where
  log : ∃ l, c'.log = c.log ++ l ∧ signals l = [] ∧ (∀ e ∈ l, e.Still) ∧ taken l ++ c'.d.content = c.d.content
  p : c'.p = c.p
  parsing : c'.parsing = c.parsing
  pending : c'.responsePending = c.responsePending
  error : c'.error = c.error
  request : c'.request = c.request
  decoder : c'.contentDecoder = c.contentDecoder
  state : c'.sock.state = c.sock.state
  rx : c'.sock.rx = c.sock.rx
  size : free = false → c'.sock.readBufferSize = c.sock.readBufferSize
  field : c'.d.field = c.d.field
  value : c'.d.value = c.d.value
  last : c'.d.lastWasValue = c.d.lastWasValue
  headers : c'.d.headers = c.d.headers
  onHeaders : Mellow free c.onHeaders → Mellow free c'.onHeaders
  onContent : Mellow free c.onContent → Mellow free c'.onContent

theorem Mild.refl (free : Bool) (c : Client) : Mild free c c := ⟨⟨[], by simp, rfl, by simp, rfl⟩, rfl, rfl, rfl, rfl, rfl, rfl, rfl, rfl, fun _ => rfl, rfl, rfl, rfl, rfl, id, id⟩

theorem Mild.trans {a b c : Client} {free : Bool} (h : Mild free a b) (k : Mild free b c) : Mild free a c := by
  obtain ⟨l1, h1, h2, h3, h4⟩ := h.log
  obtain ⟨l2, k1, k2, k3, k4⟩ := k.log
  exact ⟨⟨l1 ++ l2, by rw [k1, h1]; simp, by rw [signals_append, h2, k2]; rfl, fun e he => (List.mem_append.1 he).elim (h3 e) (k3 e),
      by rw [taken_append, List.append_assoc, k4, h4]⟩,
    k.p.trans h.p, k.parsing.trans h.parsing, k.pending.trans h.pending, k.error.trans h.error, k.request.trans h.request, k.decoder.trans h.decoder,
    k.state.trans h.state, k.rx.trans h.rx, fun hf => (k.size hf).trans (h.size hf), k.field.trans h.field, k.value.trans h.value, k.last.trans h.last, k.headers.trans h.headers, k.onHeaders ∘ h.onHeaders, k.onContent ∘ h.onContent⟩

theorem Mild.add {free : Bool} (c : Client) (e : CEv) (h1 : signals [e] = []) (h2 : e.Still) (h3 : taken [e] = []) : Mild free c (c.add e) :=
  ⟨⟨[e], rfl, h1, fun x hx => by rw [List.mem_singleton.1 hx]; exact h2, by rw [h3]; rfl⟩, rfl, rfl, rfl, rfl, rfl, rfl, rfl, rfl, fun _ => rfl, rfl, rfl, rfl, rfl, id, id⟩

theorem makeRequest_mild {em : Signal → Client → Client} {c : Client} (hp : c.responsePending = true) (free : Bool) (r : ClientRequest) : Mild free c (c.makeRequest em r) := by
  unfold Client.makeRequest
  rw [if_pos hp]
  exact Mild.add c _ rfl trivial rfl

theorem consumeContent_mild (free : Bool) (c : Client) : Mild free c c.consumeContent := by
  unfold Client.consumeContent
  dsimp only
  split <;> exact ⟨⟨[.consumed c.d.content], rfl, rfl, fun x hx => by rw [List.mem_singleton.1 hx]; trivial, by simp [taken]⟩, rfl, rfl, rfl, rfl, rfl, rfl, rfl, rfl, fun _ => rfl, rfl, rfl, rfl, rfl, id, id⟩

theorem call_mild (env : ClientEnv) {em : Signal → Client → Client} {c : Client} (hp : c.responsePending = true) {free : Bool} {u : UserCall} (hu : UserCall.Mellow free u) : Mild free c (c.call env em u) := by
  cases u with
  | request r => exact makeRequest_mild hp free r
  | abort => exact hu.elim
  | consumeContent => exact consumeContent_mild free c
  | followRedirection =>
    show Mild free c (c.followRedirection env em)
    unfold Client.followRedirection
    dsimp only
    have h1 : Mild free c (c.add .followRedirection) := Mild.add c _ rfl trivial rfl
    split
    · exact h1
    · exact h1.trans (makeRequest_mild (c := c.add .followRedirection) hp free _)
  | setKeepAliveTimeout ms => exact ⟨⟨[], by simp [Client.call], rfl, by simp, rfl⟩, rfl, rfl, rfl, rfl, rfl, rfl, rfl, rfl, fun _ => rfl, rfl, rfl, rfl, rfl, id, id⟩
  | setReadBufferSize n =>
    refine ⟨⟨[], by simp [Client.call], rfl, by simp, rfl⟩, rfl, rfl, rfl, rfl, rfl, rfl, rfl, rfl, fun hf => ?_, rfl, rfl, rfl, rfl, id, id⟩
    have hu : free = true := hu
    rw [hf] at hu; cases hu

theorem calls_mild (env : ClientEnv) {em : Signal → Client → Client} {free : Bool} : ∀ (l : List UserCall) {c : Client}, c.responsePending = true → (∀ u ∈ l, UserCall.Mellow free u) →
    Mild free c (l.foldl (Client.call env em) c)
  | [], c, _, _ => Mild.refl free c
  | u :: l, c, hp, hl => by
    have h1 := call_mild env (em := em) hp (hl u (by simp))
    exact h1.trans (calls_mild env l (h1.pending.trans hp) fun u hu => hl u (by simp [hu]))

/-- Signals during the response: the application sees them and reacts. -/
def EmMild (free : Bool) (em : Signal → Client → Client) : Prop :=
  ∀ s c, s ≠ .finished → CalmApp free c → c.responsePending = true → Mild free (c.add (c.shows s)) (em s c)

theorem headD_calm {l : List (List UserCall)} {free : Bool} (h : Mellow free l) : ∀ u ∈ l.headD [], UserCall.Mellow free u := by
  cases l with
  | nil => simp
  | cons a l => exact h a (by simp)

theorem tail_calm {l : List (List UserCall)} {free : Bool} (h : Mellow free l) : Mellow free l.tail := fun x hx => h x (List.mem_of_mem_tail hx)

theorem emit_mild (env : ClientEnv) (free : Bool) : ∀ n, EmMild free (Client.emit env n)
  | 0, s, c, _, _, _ => Mild.refl free _
  | n + 1, s, c, hs, hc, hp => by
    show Mild free (c.add (c.shows s)) ((((c.add (c.shows s)).react s).1).foldl (Client.call env (Client.emit env n)) ((c.add (c.shows s)).react s).2)
    cases s with
    | headers =>
      refine Mild.trans (b := ((c.add (c.shows .headers)).react .headers).2) ?_ (calls_mild env _ hp (headD_calm hc.1))
      exact ⟨⟨[], by simp [Client.react], rfl, by simp, rfl⟩, rfl, rfl, rfl, rfl, rfl, rfl, rfl, rfl, fun _ => rfl, rfl, rfl, rfl, rfl, tail_calm, id⟩
    | content =>
      refine Mild.trans (b := ((c.add (c.shows .content)).react .content).2) ?_ (calls_mild env _ hp (headD_calm hc.2))
      exact ⟨⟨[], by simp [Client.react], rfl, by simp, rfl⟩, rfl, rfl, rfl, rfl, rfl, rfl, rfl, rfl, fun _ => rfl, rfl, rfl, rfl, rfl, id, tail_calm⟩
    | finished => exact absurd rfl hs

/-! ## The relation -/

/-- What the application gets of the content `bs`, with or without a decoder. -/
def Seen (env : ClientEnv) (gz : Bool) (bs all : Bytes) : Prop :=
  (gz = false ∧ all = bs) ∨ (gz = true ∧ ∃ (f : List Bytes → Bytes) (blocks : List Bytes), env.inflate = some f ∧ [] ∉ blocks ∧ blocks.flatten = bs ∧ all = unzipped f blocks)

/-- … and the state of the decoder. -/
def Decoding (env : ClientEnv) (t : QData) (dec : Option (List Bytes)) (all : Bytes) : Prop :=
  (t.gz = false ∧ dec = none ∧ all = t.d.content) ∨ (t.gz = true ∧ t.sig ≠ [] ∧ ∃ (f : List Bytes → Bytes) (blocks : List Bytes), env.inflate = some f ∧ dec = some blocks ∧ [] ∉ blocks ∧ blocks.flatten = t.d.content ∧ all = unzipped f blocks)

/-- The client in the middle of a response. -/
structure Told (env : ClientEnv) (L : Setting) (c : Client) (t : QData) : Prop where
  parsing : c.parsing = true
  pending : c.responsePending = true
  error : c.error = .noError
  method : L.head = true ↔ IsHead c.request
  state : c.sock.state = .connected
  rx : c.sock.rx = L.unread
  unlimited : L.free = false → c.sock.readBufferSize = 0
  field : c.d.field = t.d.field
  value : c.d.value = t.d.value
  last : c.d.lastWasValue = t.d.lastWasValue
  headers : c.d.headers = t.d.headers
  calm : CalmApp L.free c
  fin : t.fin = none ∧ ∀ e ∈ t.sig, ∃ st hs, e = .headersCompleted st hs
  log : ∃ l, c.log = L.before ++ l ∧ signals l = t.sig ∧ (t.odd = true ∨ ∃ all, taken l ++ c.d.content = all ∧ Announced l all ∧ Decoding env t c.contentDecoder all)

/-- The client when the response is over. -/
def Over (env : ClientEnv) (L : Setting) (c : Client) (t : QData) : Prop :=
  ∃ st hs l1 ct l2, t.fin = some (st, hs) ∧ c.log = L.before ++ l1 ++ .finished .noError st hs ct :: l2 ∧ signals l1 = t.sig ∧ c.responsePending = false ∧ (L.unread = [] → t.d.field = [] → t.d.value = [] → Fresh c) ∧
    (t.odd = true ∨ ∃ all, taken l1 ++ ct = all ∧ Announced l1 all ∧ Seen env t.gz t.d.content all)

/-- Calm calls in the middle of a response. -/
theorem Told.mild {env : ClientEnv} {L : Setting} {c c' : Client} {t : QData} (h : Told env L c t) (m : Mild L.free c c') : Told env L c' t := by
  obtain ⟨l, h1, h2, h3⟩ := h.log
  obtain ⟨k, k1, k2, k3, k4⟩ := m.log
  refine ⟨m.parsing.trans h.parsing, m.pending.trans h.pending, m.error.trans h.error, by rw [m.request]; exact h.method, m.state.trans h.state,
    m.rx.trans h.rx, fun hf => (m.size hf).trans (h.unlimited hf), m.field.trans h.field, m.value.trans h.value, m.last.trans h.last, m.headers.trans h.headers,
    ⟨m.onHeaders h.calm.1, m.onContent h.calm.2⟩, h.fin, ⟨l ++ k, by rw [k1, h1]; simp, by rw [signals_append, h2, k2, List.append_nil], h3.imp id ?_⟩⟩
  rintro ⟨all, e1, e2, e3⟩
  exact ⟨all, by rw [taken_append, List.append_assoc, k4, e1], announced_still e2 k3, by rw [m.decoder]; exact e3⟩

/-- Changes that do not concern the response. -/
theorem Told.same {env : ClientEnv} {L : Setting} {c c' : Client} {t : QData} (h : Told env L c t) (e1 : c'.parsing = c.parsing) (e2 : c'.responsePending = c.responsePending)
    (e3 : c'.error = c.error) (e4 : c'.request = c.request) (e5 : c'.sock.state = c.sock.state) (e6 : c'.sock.rx = c.sock.rx) (e7 : c'.sock.readBufferSize = c.sock.readBufferSize)
    (e8 : c'.d = c.d) (e9 : c'.onHeaders = c.onHeaders) (e10 : c'.onContent = c.onContent) (e11 : c'.log = c.log) (e12 : c'.contentDecoder = c.contentDecoder) : Told env L c' t := by
  refine ⟨e1.trans h.parsing, e2.trans h.pending, e3.trans h.error, by rw [e4]; exact h.method, e5.trans h.state, e6.trans h.rx, fun hf => e7.trans (h.unlimited hf),
    by rw [e8]; exact h.field, by rw [e8]; exact h.value, by rw [e8]; exact h.last, by rw [e8]; exact h.headers, by unfold CalmApp; rw [e9, e10]; exact h.calm, h.fin, ?_⟩
  rw [e11, e8, e12]
  exact h.log

theorem nil_of_decoding {env : ClientEnv} {t : QData} {dec : Option (List Bytes)} {all : Bytes} (h : Decoding env t dec all) (h1 : t.gz = false) (h2 : t.d.content = []) : all = [] ∧ dec = none := by
  rcases h with ⟨_, h3, h4⟩ | ⟨h3, _⟩
  · exact ⟨h4.trans h2, h3⟩
  · rw [h1] at h3; cases h3

section
variable {env : ClientEnv}

theorem told_begin {L : Setting} {c : Client} {t : QData} (h : Told env L c t) (p : HParser) :
    Told env L { c with p := p, d := { c.d with headers := [], content := [], lastWasValue := false } } (qBegin t) := by
  obtain ⟨l, h1, h2, h3⟩ := h.log
  refine ⟨h.parsing, h.pending, h.error, h.method, h.state, h.rx, h.unlimited, h.field, h.value, rfl, rfl, h.calm, h.fin, ⟨l, h1, h2, ?_⟩⟩
  by_cases ho : t.odd = true
  · exact Or.inl (by simp [qBegin, ho])
  · rcases h3 with h3 | ⟨all, e1, e2, e3⟩
    · exact absurd h3 ho
    · by_cases hc : t.d.content = []
      · by_cases hz : t.gz = true
        · exact Or.inl (by simp [qBegin, hz])
        · have hz : t.gz = false := by simpa using hz
          obtain ⟨ha, hd⟩ := nil_of_decoding e3 hz hc
          subst ha
          have ht := (List.append_eq_nil_iff.1 e1).1
          exact Or.inr ⟨[], by rw [ht]; rfl, e2, Or.inl ⟨hz, hd, rfl⟩⟩
      · exact Or.inl (by simp [qBegin, hc])

theorem push_congr {a b : RespData} (h1 : a.field = b.field) (h2 : a.value = b.value) (h3 : a.lastWasValue = b.lastWasValue) (h4 : a.headers = b.headers) :
    a.push.field = b.push.field ∧ a.push.value = b.push.value ∧ a.push.lastWasValue = b.push.lastWasValue ∧ a.push.headers = b.push.headers ∧
      a.push.content = a.content ∧ b.push.content = b.content := by
  unfold RespData.push
  rw [h3]
  by_cases hb : b.lastWasValue = true
  · rw [if_pos hb, if_pos hb, h1, h2, h4]
    exact ⟨rfl, rfl, rfl, rfl, rfl, rfl⟩
  · rw [if_neg hb, if_neg hb]
    exact ⟨h1, h2, h3, h4, rfl, rfl⟩

theorem told_d {L : Setting} {c : Client} {t : QData} (h : Told env L c t) {d dt : RespData} (e1 : d.field = dt.field) (e2 : d.value = dt.value) (e3 : d.lastWasValue = dt.lastWasValue)
    (e4 : d.headers = dt.headers) (e5 : d.content = c.d.content) (e6 : dt.content = t.d.content) (p : HParser) : Told env L { c with p := p, d := d } { t with d := dt } := by
  obtain ⟨l, h1, h2, h3⟩ := h.log
  refine ⟨h.parsing, h.pending, h.error, h.method, h.state, h.rx, h.unlimited, e1, e2, e3, e4, h.calm, h.fin, ⟨l, h1, h2, h3.imp id ?_⟩⟩
  rintro ⟨all, k1, k2, k3⟩
  refine ⟨all, by dsimp only; rw [e5]; exact k1, k2, ?_⟩
  unfold Decoding at k3 ⊢
  dsimp only
  rw [e6]
  exact k3


/-- What is known after `headersCompleted()`. -/
def qShown (status : Nat) (t : QData) : QData :=
  { t with d := t.d.push, sig := t.sig ++ [.headersCompleted status t.d.push.headers], gz := false, odd := t.odd || !t.d.content.isEmpty || t.gz }

theorem told_pushed {L : Setting} {c : Client} {t : QData} (h : Told env L c t) (p : HParser) : Told env L { c with p := p, parsing := true, d := c.d.push } { t with d := t.d.push } := by
  obtain ⟨q1, q2, q3, q4, q5, q6⟩ := push_congr h.field h.value h.last h.headers
  exact (told_d h q1 q2 q3 q4 q5 q6 p).same h.parsing.symm rfl rfl rfl rfl rfl rfl rfl rfl rfl rfl rfl

/-- `headersCompleted()`. -/
theorem told_shown {em : Signal → Client → Client} {L : Setting} (hm : EmMild L.free em) {c : Client} {t : QData} (h : Told env L c t) (p : HParser) :
    Told env L (em .headers { c with p := p, parsing := true, d := c.d.push }) (qShown p.status t) ∧ (em .headers { c with p := p, parsing := true, d := c.d.push }).p = p := by
  obtain ⟨q1, q2, q3, q4, q5, q6⟩ := push_congr h.field h.value h.last h.headers
  have h0 := told_pushed h p
  have hm1 := hm .headers { c with p := p, parsing := true, d := c.d.push } (by simp) h0.calm h0.pending
  generalize hc1 : em .headers { c with p := p, parsing := true, d := c.d.push } = c1 at hm1
  obtain ⟨k, k1, k2, k3, k4⟩ := hm1.log
  obtain ⟨l, h1, h2, h3⟩ := h0.log
  dsimp only [Client.add] at k1 k4
  have hlog : c1.log = L.before ++ (l ++ .headersCompleted p.status c.d.push.headers :: k) := by
    rw [k1]
    show c.log ++ [.headersCompleted p.status c.d.push.headers] ++ k = _
    rw [show c.log = L.before ++ l from h1]
    simp
  have hsig : signals (l ++ .headersCompleted p.status c.d.push.headers :: k) = t.sig ++ [.headersCompleted p.status t.d.push.headers] := by
    rw [signals_append, h2]
    show t.sig ++ (CEv.headersCompleted p.status c.d.push.headers :: signals k) = _
    rw [k2, q4]
  have htk : taken (l ++ .headersCompleted p.status c.d.push.headers :: k) ++ c1.d.content = taken l ++ c.d.push.content := by
    rw [taken_append, List.append_assoc]
    show taken l ++ ([] ++ taken k ++ c1.d.content) = _
    rw [List.nil_append, k4]
  have hcnt : ∀ e ∈ (CEv.headersCompleted p.status c.d.push.headers :: k), e.Still := by
    intro e he
    rcases List.mem_cons.1 he with rfl | he
    · trivial
    · exact k3 e he
  have hh1 : c1.d.headers = t.d.push.headers := hm1.headers.trans q4
  have hdec : c1.contentDecoder = c.contentDecoder := hm1.decoder
  have hodd : t.odd = true ∨ t.d.content ≠ [] ∨ t.gz = true ∨ (t.d.content = [] ∧ t.gz = false ∧ c.contentDecoder = none ∧ taken l ++ c.d.push.content = [] ∧ Announced l []) := by
    by_cases ho : t.odd = true
    · exact Or.inl ho
    · by_cases hc : t.d.content = []
      · by_cases hz : t.gz = true
        · exact Or.inr (Or.inr (Or.inl hz))
        · have hz : t.gz = false := by simpa using hz
          rcases h3 with h3 | ⟨all, e1, e2, e3⟩
          · exact absurd h3 ho
          · obtain ⟨ha, hd⟩ := nil_of_decoding e3 hz (by rw [← hc]; exact q6)
            subst ha
            exact Or.inr (Or.inr (Or.inr ⟨hc, hz, hd, e1, e2⟩))
      · exact Or.inr (Or.inl hc)
  refine ⟨⟨hm1.parsing, hm1.pending.trans h.pending, hm1.error.trans h.error, by rw [show c1.request = c.request from hm1.request]; exact h.method, hm1.state.trans h.state, hm1.rx.trans h.rx,
    fun hf => (hm1.size hf).trans (h.unlimited hf), hm1.field.trans q1, hm1.value.trans q2, hm1.last.trans q3, hh1, ⟨hm1.onHeaders h.calm.1, hm1.onContent h.calm.2⟩, ⟨h.fin.1, fun e he => (List.mem_append.1 he).elim (h.fin.2 e) fun he => ⟨_, _, List.mem_singleton.1 he⟩⟩,
    ⟨_, hlog, hsig, ?_⟩⟩, hm1.p⟩
  rcases hodd with ho | ho | ho | ⟨o1, o2, o3, o4, o5⟩
  · exact Or.inl (by simp [qShown, ho])
  · exact Or.inl (by simp [qShown, ho])
  · exact Or.inl (by simp [qShown, ho])
  · exact Or.inr ⟨[], htk.trans o4, announced_still o5 hcnt, Or.inl ⟨rfl, hdec.trans o3, (q6.trans o1).symm⟩⟩

/-- The decoder is set up. -/
theorem told_gz {L : Setting} {c : Client} {t : QData} (hsg : t.sig ≠ []) (hi : env.inflate.isSome = true) (h0 : t.odd = true ∨ t.d.content = []) (hz : t.gz = false) (h : Told env L c t) :
    Told env L { c with contentDecoder := some [] } { t with gz := true } := by
  obtain ⟨l, h1, h2, h3⟩ := h.log
  refine ⟨h.parsing, h.pending, h.error, h.method, h.state, h.rx, h.unlimited, h.field, h.value, h.last, h.headers, h.calm, h.fin, ⟨l, h1, h2, ?_⟩⟩
  rcases h0 with h0 | h0
  · exact Or.inl h0
  · refine h3.imp id ?_
    rintro ⟨all, e1, e2, e3⟩
    obtain ⟨f, hf⟩ := Option.isSome_iff_exists.1 hi
    refine ⟨all, e1, e2, Or.inr ⟨rfl, hsg, f, [], hf, rfl, List.not_mem_nil, h0.symm, ?_⟩⟩
    exact (nil_of_decoding e3 hz h0).1

theorem told_head {em : Signal → Client → Client} {L : Setting} (hm : EmMild L.free em) {c : Client} {t : QData} (h : Told env L c t) (p : HParser) (hd : L.head = false ∨ p.status = 100) :
    Told env L (Client.headersComplete env em { c with p := p, parsing := true, d := c.d.push }) (qHead env p.status t) ∧
      (Client.headersComplete env em { c with p := p, parsing := true, d := c.d.push }).p = p := by
  have h0 := told_pushed h p
  unfold Client.headersComplete qHead
  by_cases hs : p.status = 100
  · rw [if_pos hs, if_pos hs]
    exact ⟨h0, rfl⟩
  · rw [if_neg hs, if_neg hs]
    dsimp only
    obtain ⟨h1, h2⟩ := told_shown hm h p
    generalize em .headers { c with p := p, parsing := true, d := c.d.push } = c1 at h1 h2
    have hnh : ¬ asciiEqualsCILower (c1.request.method.getD []) b!"head" = true := by
      rw [isHead_iff, ← h1.method, hd.resolve_right hs]
      simp
    rw [if_neg hnh]
    have hgz : (env.inflate.isSome && c1.d.headers.any (fun h => asciiEqualsCILower h.name b!"content-encoding" && asciiEqualsCILower h.value b!"gzip")) = (env.inflate.isSome && gzipped t.d.push.headers) := by
      rw [h1.headers]; rfl
    rw [hgz]
    by_cases hb : (env.inflate.isSome && gzipped t.d.push.headers) = true
    · rw [if_pos hb, hb]
      refine ⟨told_gz (t := qShown p.status t) (by simp [qShown]) (by simp only [Bool.and_eq_true] at hb; exact hb.1) ?_ rfl h1, h2⟩
      by_cases hc : t.d.content = []
      · exact Or.inr ((push_congr h.field h.value h.last h.headers).2.2.2.2.2.trans hc)
      · exact Or.inl (by simp [qShown, hc])
    · rw [if_neg hb, show (env.inflate.isSome && gzipped t.d.push.headers) = false by simpa using hb]
      exact ⟨h1, h2⟩

/-- `contentReadyRead()`. -/
theorem told_body {em : Signal → Client → Client} {L : Setting} (hm : EmMild L.free em) {c : Client} {t : QData} (h : Told env L c t) (bs : Bytes) (hbs : bs ≠ []) (p : HParser) :
    Told env L (Client.messageContent env em bs { c with p := p, parsing := true }) (qB bs t) ∧ (Client.messageContent env em bs { c with p := p, parsing := true }).p = p := by
  rw [messageContent_eq]
  obtain ⟨l, h1, h2, h3⟩ := h.log
  obtain ⟨ct, dec, e⟩ := storing_facts env bs { c with p := p, parsing := true }
  have hst : t.odd = true ∨ ∃ all x, taken l ++ (c.d.content ++ ct) = all ++ x ∧ taken l ++ c.d.content = all ∧ Announced l all ∧ Decoding env (qB bs t) dec (all ++ x) := by
    refine h3.imp id ?_
    rintro ⟨all, k1, k2, k3⟩
    refine ⟨all, ct, by rw [← List.append_assoc, k1], k1, k2, ?_⟩
    rcases k3 with ⟨z1, z2, z3⟩ | ⟨z1, z0, f, blocks, z2, z3, zn, z4, z5⟩
    · have e' : Client.storing env bs { c with p := p, parsing := true } = { c with p := p, parsing := true, d := { c.d with content := c.d.content ++ bs } } := by
        unfold Client.storing
        dsimp only
        rw [z2]
      rw [e'] at e
      have ec := congrArg (fun c => c.d.content) e
      have ed := congrArg (fun c => c.contentDecoder) e
      dsimp only at ec ed
      have ec := List.append_cancel_left ec
      subst ec
      rw [← ed]
      exact Or.inl ⟨z1, z2, by rw [z3]; rfl⟩
    · have e' : Client.storing env bs { c with p := p, parsing := true } = { c with p := p, parsing := true, contentDecoder := some (blocks ++ [bs]), d := { c.d with content := c.d.content ++ f (blocks ++ [bs]) } } := by
        unfold Client.storing
        dsimp only
        rw [z2, z3]
      rw [e'] at e
      have ec := congrArg (fun c => c.d.content) e
      have ed := congrArg (fun c => c.contentDecoder) e
      dsimp only at ec ed
      have ec := List.append_cancel_left ec
      subst ec
      rw [← ed]
      refine Or.inr ⟨z1, z0, f, blocks ++ [bs], z2, rfl, ?_, ?_, ?_⟩
      · rw [List.mem_append, List.mem_singleton]; rintro (h | h)
        · exact zn h
        · exact hbs h.symm
      · rw [List.flatten_append, z4]; simp [qB, rB]
      · rw [unzipped_snoc, z5]
  rw [e]
  have hm1 := hm .content { c with p := p, parsing := true, contentDecoder := dec, d := { c.d with content := c.d.content ++ ct } } (by simp) h.calm h.pending
  generalize em .content { c with p := p, parsing := true, contentDecoder := dec, d := { c.d with content := c.d.content ++ ct } } = c1 at hm1
  obtain ⟨k, k1, k2, k3, k4⟩ := hm1.log
  dsimp only [Client.add] at k1 k4
  have hlog : c1.log = L.before ++ (l ++ [.contentReadyRead (c.d.content ++ ct)] ++ k) := by
    rw [k1]
    show c.log ++ [.contentReadyRead (c.d.content ++ ct)] ++ k = _
    rw [show c.log = L.before ++ l from h1]
    simp
  refine ⟨⟨hm1.parsing, hm1.pending.trans h.pending, hm1.error.trans h.error, by rw [show c1.request = c.request from hm1.request]; exact h.method, hm1.state.trans h.state, hm1.rx.trans h.rx,
        fun hf => (hm1.size hf).trans (h.unlimited hf), hm1.field.trans h.field, hm1.value.trans h.value, hm1.last.trans h.last, hm1.headers.trans h.headers, ⟨hm1.onHeaders h.calm.1, hm1.onContent h.calm.2⟩, h.fin,
        ⟨_, hlog, ?_, ?_⟩⟩, hm1.p⟩
  · rw [signals_append, signals_append, h2, k2]
    show t.sig ++ [] ++ [] = t.sig
    simp
  · by_cases hodd : (qB bs t).odd = true
    · exact .inl hodd
    refine (hst.resolve_left fun h => hodd (by simp [qB, h])).elim ?_
    rintro all ⟨x, x1, x2, x3, x4⟩
    have ho : taken l ++ (c.d.content ++ ct) ≠ [] → ∃ st hs, .headersCompleted st hs ∈ l := by
      intro hne
      by_cases hsig : t.sig = []
      · exfalso
        have hbs : bs = [] := by
          cases bs with
          | nil => rfl
          | cons => exact absurd (by simp [qB, hsig]) hodd
        have hall : all = [] := by
          cases ha : all with
          | nil => rfl
          | cons a as =>
            obtain ⟨l1, ct1, l2, e1, e2⟩ := x3.2.1 (by rw [ha]; simp)
            obtain ⟨st, hs, hmem⟩ := x3.2.2 l1 ct1 l2 e1 (by rw [e2, ha]; simp)
            have : CEv.headersCompleted st hs ∈ signals l := List.mem_filter.2 ⟨by rw [e1]; simp [hmem], rfl⟩
            rw [h2, hsig] at this
            cases this
        rcases x4 with ⟨-, -, y⟩ | ⟨-, y, -⟩
        · have hc0 : t.d.content = [] := by
            rcases h3 with h3 | ⟨all', b1, -, b3⟩
            · exact absurd (by simp [qB, h3]) hodd
            · rcases b3 with ⟨-, -, b4⟩ | ⟨-, b4, -⟩
              · rw [← b4, ← b1, x2, hall]
              · exact absurd hsig b4
          apply hne
          rw [x1, y]
          simp [qB, rB, hbs, hc0]
        · exact y hsig
      · obtain ⟨e, he⟩ := List.exists_mem_of_ne_nil _ hsig
        obtain ⟨st, hs, rfl⟩ := h.fin.2 e he
        rw [← h2] at he
        exact ⟨st, hs, (List.mem_filter.1 he).1⟩
    refine .inr ⟨all ++ x, ?_, announced_still (announced_more x3 x x1 ho) k3, ?_⟩
    · rw [taken_append, taken_append, List.append_assoc, k4]
      show taken l ++ [] ++ (c.d.content ++ ct) = _
      rw [List.append_nil, x1]
    · rw [show c1.contentDecoder = dec from hm1.decoder]; exact x4

/-- The end of an interim response. -/
theorem told_interim {em : Signal → Client → Client} {L : Setting} {c : Client} {t : QData} (h : Told env L c t) {p : HParser} (hs : p.status = 100) :
    Client.messageComplete em { c with p := p, parsing := true } = { c with p := p.init.pause, contentDecoder := none, d := { c.d with headers := [], content := [] } } ∧
    ∀ q, Told env L { c with p := q, contentDecoder := none, d := { c.d with headers := [], content := [] } }
      { t with d := { t.d with headers := [], content := [] }, gz := false, odd := t.odd || !t.d.content.isEmpty || t.gz } := by
  constructor
  · rw [messageComplete_eq, if_pos hs]
    unfold Client.clear
    simp [h.parsing]
  · intro q
    obtain ⟨l, h1, h2, h3⟩ := h.log
    refine ⟨h.parsing, h.pending, h.error, h.method, h.state, h.rx, h.unlimited, h.field, h.value, h.last, rfl, h.calm, h.fin, ⟨l, h1, h2, ?_⟩⟩
    by_cases ho : t.odd = true
    · exact Or.inl (by simp [ho])
    · rcases h3 with h3 | ⟨all, e1, e2, e3⟩
      · exact absurd h3 ho
      · by_cases hc : t.d.content = []
        · by_cases hz : t.gz = true
          · exact Or.inl (by simp [hz])
          · have hz : t.gz = false := by simpa using hz
            obtain ⟨ha, hd⟩ := nil_of_decoding e3 hz hc
            subst ha
            have ht := (List.append_eq_nil_iff.1 e1).1
            exact Or.inr ⟨[], by rw [ht]; rfl, e2, Or.inl ⟨rfl, rfl, rfl⟩⟩
        · exact Or.inl (by simp [hc])

theorem completing_log (c : Client) : c.completing.log = c.log ∨ c.completing.log = c.log ++ [.close] := by
  unfold Client.completing
  dsimp only
  split
  · exact Or.inr rfl
  · split
    · exact Or.inr rfl
    · exact Or.inl rfl

/-- The end of the final response. -/
theorem told_over {em : Signal → Client → Client} (hg : EmGrows em) (hf : EmFramed em) (hfr' : EmFresh em) {L : Setting} {c : Client} {t : QData} (h : Told env L c t) {p : HParser} (hs : p.status ≠ 100) (q : HParser) :
    Over env L { (Client.messageComplete em { c with p := p, parsing := true }) with p := q } { t with fin := some (p.status, t.d.headers) } := by
  have hfr := messageComplete_framed hf (c := { c with p := p, parsing := true }) rfl hs
  obtain ⟨l, h1, h2, h3⟩ := h.log
  rw [messageComplete_eq, if_neg hs] at hfr ⊢
  have hgr := hg .finished (Client.completing { c with p := p, parsing := true })
  obtain ⟨k1, k2, k3, k4, k5, k6, -⟩ := completing_facts { c with p := p, parsing := true }
  have hk := completing_log { c with p := p, parsing := true }
  have hsh : (Client.completing { c with p := p, parsing := true }).shows .finished = .finished .noError p.status t.d.headers c.d.content := by
    show CEv.finished _ _ _ _ = _
    rw [k1, k4, k6]
    show CEv.finished c.error p.status c.d.headers c.d.content = _
    rw [h.error, h.headers]
  rw [hsh] at hgr
  obtain ⟨l2, hl2⟩ := hgr
  have hclose : ∃ k, (Client.completing { c with p := p, parsing := true }).log = L.before ++ (l ++ k) ∧ signals k = [] ∧ taken k = [] ∧ ∀ e ∈ k, e.Still := by
    rcases hk with e | e
    · exact ⟨[], by rw [e, List.append_nil]; exact h1, rfl, rfl, by simp⟩
    · exact ⟨[.close], by rw [e, ← List.append_assoc]; exact congrArg (· ++ [CEv.close]) h1, rfl, rfl, fun x hx => by rw [List.mem_singleton.1 hx]; trivial⟩
  obtain ⟨k, e1, e2, e3, e4⟩ := hclose
  refine ⟨p.status, t.d.headers, l ++ k, c.d.content, l2, rfl, ?_, by rw [signals_append, h2, e2, List.append_nil], hfr.2.1, fun f0 f1 f2 => ?_, h3.imp id ?_⟩
  · show (em .finished _).log = _
    rw [← hl2, e1]
    simp
  · have hx : Fresh (Client.completing { c with p := p, parsing := true }) := by
      refine ⟨by rw [k4]; exact h.field.trans f1, by rw [k4]; exact h.value.trans f2, ?_, ?_, fun _ hp => by rw [k3] at hp; cases hp⟩
      · unfold Client.completing
        dsimp only
        split
        · rfl
        · split <;> rfl
      · unfold Client.completing
        dsimp only
        split
        · rfl
        · split
          · rfl
          · exact h.rx.trans f0
    exact (hfr' _ _ hx).same rfl rfl rfl (Or.inl rfl) (Or.inl hfr.2.1)
  · rintro ⟨all, z1, z2, z3⟩
    refine ⟨all, by rw [taken_append, e3, List.append_nil]; exact z1, announced_still z2 e4, ?_⟩
    rcases z3 with ⟨y1, -, y2⟩ | ⟨y1, -, f, blocks, y2, -, y0, y3, y4⟩
    · exact Or.inl ⟨y1, y2⟩
    · exact Or.inr ⟨y1, f, blocks, y2, y0, y3, y4⟩

theorem told_cb {em : Signal → Client → Client} {L : Setting} (hm : EmMild L.free em) (hg : EmGrows em) (hf : EmFramed em) (hfr' : EmFresh em) :
    CbRel (solid (clientCb env em)) (quietCb env L.head) (Told env L) (fun c t => Told env L c t ∨ Over env L c t) := by
  intro k p c t hk h
  cases k with
  | messageBegin => exact ⟨rfl, Or.inl (told_begin h p), fun _ => ⟨hk, told_begin h p⟩⟩
  | field bs =>
    obtain ⟨q1, q2, q3, q4, q5, q6⟩ := push_congr h.field h.value h.last h.headers
    have : Told env L { c with p := p, d := { c.d.push with field := c.d.push.field ++ bs } } (qF bs t) :=
      told_d h (d := { c.d.push with field := c.d.push.field ++ bs }) (dt := rF bs t.d) (by show c.d.push.field ++ bs = t.d.push.field ++ bs; rw [q1]) q2 q3 q4 q5 q6 p
    exact ⟨rfl, Or.inl this, fun _ => ⟨hk, this⟩⟩
  | value bs =>
    have : Told env L { c with p := p, d := { c.d with value := c.d.value ++ bs, lastWasValue := true } } (qV bs t) :=
      told_d h (d := { c.d with value := c.d.value ++ bs, lastWasValue := true }) (dt := rV bs t.d) h.field (by show c.d.value ++ bs = t.d.value ++ bs; rw [h.value]) rfl h.headers rfl rfl p
    exact ⟨rfl, Or.inl this, fun _ => ⟨hk, this⟩⟩
  | headersComplete =>
    rw [show solid (clientCb env em) .headersComplete = clientCb env em .headersComplete from rfl]
    by_cases hd : L.head = true ∧ p.status ≠ 100
    · have e2 : quietCb env L.head .headersComplete p t = (p.pause, qOver p.status t) := if_pos hd
      obtain ⟨h1, h2⟩ := told_shown hm h p
      have hst : p.pause.status = p.status := by rw [pause_ok hk]
      have e1 : (Client.headersComplete env em { c with p := p, parsing := true, d := c.d.push }) =
          Client.messageComplete em { (em .headers { c with p := p, parsing := true, d := c.d.push }) with p := p.pause, parsing := true } := by
        unfold Client.headersComplete
        rw [if_neg hd.2]
        dsimp only
        generalize em .headers { c with p := p, parsing := true, d := c.d.push } = c1 at h1 h2
        have hh : asciiEqualsCILower (c1.request.method.getD []) b!"head" = true := by
          rw [isHead_iff, ← h1.method]; exact hd.1
        rw [if_pos hh, h2]
        congr 1
        rw [← h1.parsing]
      have hfr := messageComplete_framed hf (c := { (em .headers { c with p := p, parsing := true, d := c.d.push }) with p := p.pause, parsing := true }) rfl (by show p.pause.status ≠ 100; rw [hst]; exact hd.2)
      have hov := told_over (p := p.pause) hg hf hfr' h1 (by rw [hst]; exact hd.2) p.pause
      have e3 : clientCb env em .headersComplete p c = (p.pause, { (Client.messageComplete em { (em .headers { c with p := p, parsing := true, d := c.d.push }) with p := p.pause, parsing := true }) with p := p.pause }) := by
        show ((Client.headersComplete env em { c with p := p, parsing := true, d := c.d.push }).p, Client.headersComplete env em { c with p := p, parsing := true, d := c.d.push }) = _
        rw [e1, hfr.2.2]
        congr 1
        generalize Client.messageComplete em { (em .headers { c with p := p, parsing := true, d := c.d.push }) with p := p.pause, parsing := true } = c2 at hfr
        have := hfr.2.2
        dsimp only at this
        rw [← this]
      rw [e2, e3]
      refine ⟨rfl, Or.inr ?_, fun hn => absurd (by rw [pause_ok hk]) hn⟩
      rw [hst] at hov
      exact hov
    · have e2 : quietCb env L.head .headersComplete p t = (p, qHead env p.status t) := if_neg hd
      rw [e2]
      obtain ⟨h1, h2⟩ := told_head hm h p (by
        by_cases h1 : L.head = true
        · exact Or.inr (Decidable.byContradiction fun h2 => hd ⟨h1, h2⟩)
        · exact Or.inl (by simpa using h1))
      exact ⟨h2, Or.inl h1, fun _ => ⟨(congrArg HParser.errno h2).trans hk, h1⟩⟩
  | body bs =>
    by_cases hb : bs = []
    · subst hb
      have h1 : Told env L c (qB [] t) := by rw [(quietCb_laws env L.head).bodyNil]; exact h
      exact ⟨rfl, Or.inl h1, fun _ => ⟨hk, h1⟩⟩
    rw [solid_body hb]
    obtain ⟨h1, h2⟩ := told_body hm h bs hb p
    exact ⟨h2, Or.inl h1, fun _ => ⟨(congrArg HParser.errno h2).trans hk, h1⟩⟩
  | messageComplete =>
    rw [show solid (clientCb env em) .messageComplete = clientCb env em .messageComplete from rfl]
    by_cases hs : p.status = 100
    · obtain ⟨h1, h2⟩ := told_interim (em := em) h hs
      have e1 : clientCb env em .messageComplete p c = (p.init.pause, { c with p := p.init.pause, contentDecoder := none, d := { c.d with headers := [], content := [] } }) := by
        show ((Client.messageComplete em { c with p := p, parsing := true }).p.pause, ({ (Client.messageComplete em { c with p := p, parsing := true }) with p := (Client.messageComplete em { c with p := p, parsing := true }).p.pause } : Client)) = _
        rw [h1]
        rfl
      have e2 : quietCb env L.head .messageComplete p t = (p.init.pause, { t with d := { t.d with headers := [], content := [] }, gz := false, odd := t.odd || !t.d.content.isEmpty || t.gz }) := if_pos hs
      rw [e1, e2]
      exact ⟨rfl, Or.inl (h2 _), fun hn => absurd rfl hn⟩
    · have e2 : quietCb env L.head .messageComplete p t = (p.pause, { t with fin := some (p.status, t.d.headers) }) := if_neg hs
      have hp : (clientCb env em .messageComplete p c).1 = p.pause := by
        show (Client.messageComplete em { c with p := p, parsing := true }).p.pause = _
        rw [(messageComplete_framed hf (c := { c with p := p, parsing := true }) rfl hs).2.2]
      rw [e2, hp]
      exact ⟨rfl, Or.inr (told_over hg hf hfr' h hs _), fun hn => absurd (by rw [pause_ok hk]) hn⟩

end

end Pillow

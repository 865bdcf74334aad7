import Verif.Lemmas.ParserSafe
/-!
# The order in which the response parser calls its callbacks

For each message: begin, fields and values, the end of the headers, content (and fields and values again), the end of the message.
-/
namespace Pillow
variable {σ : Type} {cb : CB σ}

/-- The end of the headers of the present message has been announced. -/
def HParser.told (p : HParser) : Bool :=
  match p.state with
  | .headersDone | .chunkSizeStart | .chunkSize | .chunkParams | .chunkSizeAlmostDone | .chunkData | .chunkDataAlmostDone | .chunkDataDone | .bodyIdentity | .bodyEof | .messageDone => true
  | .fieldStart | .field | .valueStart | .value | .valueLws | .almostDone | .headersAlmostDone => p.fTrailing
  | _ => false

/-- … and with which status. -/
def HParser.seen (p : HParser) : Option Nat := if p.told then some p.status else none

/-- Trailers do not come before the headers. -/
def HParser.Phase (p : HParser) : Prop :=
  match p.state with
  | .resH | .resHT | .resHTT | .resHTTP | .firstMajor | .major | .firstMinor | .minor | .firstStatus | .status | .statusText | .lineAlmostDone => p.fTrailing = false
  | _ => True

theorem seen_congr {p q : HParser} (h1 : q.state = p.state) (h2 : q.fTrailing = p.fTrailing) (h3 : q.status = p.status) : q.seen = p.seen := by
  unfold HParser.seen HParser.told; rw [h1, h2, h3]

theorem phase_congr {p q : HParser} (h1 : q.state = p.state) (h2 : q.fTrailing = p.fTrailing) (h : p.Phase) : q.Phase := by
  unfold HParser.Phase at h ⊢; rw [h1, h2]; exact h

/-- The calls that are made: what has been announced before and afterwards. -/
inductive Move : Cb → HParser → Option Nat → Option Nat → Prop where
  | begin {p : HParser} : p.seen = none → Move .messageBegin p none none
  | field {p : HParser} (bs : Bytes) : Move (.field bs) p p.seen p.seen
  | value {p : HParser} (bs : Bytes) : Move (.value bs) p p.seen p.seen
  | headers {p : HParser} : p.state = .headersDone → Move .headersComplete p none (some p.status)
  | body {p : HParser} (bs : Bytes) : p.seen = some p.status → Move (.body bs) p (some p.status) (some p.status)
  | complete {p : HParser} : Move .messageComplete p (some p.status) none

theorem seen_or (p : HParser) : p.seen = none ∨ p.seen = some p.status := by
  unfold HParser.seen; split
  · exact Or.inr rfl
  · exact Or.inl rfl

theorem move_or {c : Cb} {p : HParser} {a b : Option Nat} (h : Move c p a b) : b = none ∨ b = some p.status := by
  cases h with
  | begin => exact Or.inl rfl
  | field => exact seen_or p
  | value => exact seen_or p
  | headers => exact Or.inr rfl
  | body => exact Or.inr rfl
  | complete => exact Or.inl rfl

/-- Callbacks that keep `J`, as long as they do not pause the parser; `K` holds when they do. -/
def Phased (cb : CB σ) (J : Option Nat → σ → Prop) (K : HParser → σ → Prop) : Prop :=
  ∀ c p s a b, p.errno = .ok → p.Phase → Move c p a b → J a s →
    ((cb c p s).1.errno = .ok → J b (cb c p s).2) ∧ ((cb c p s).1.errno = .paused → K (cb c p s).1 (cb c p s).2)

section
variable {J : Option Nat → σ → Prop} {K : HParser → σ → Prop}

/-- What is known of the result of a pass through the switch. -/
def ResPhase (J : Option Nat → σ → Prop) (K : HParser → σ → Prop) : Res σ → Prop
  | .go p s _ _ => p.Phase ∧ J p.seen s
  | .ret p s _ => (p.errno = .paused → K p s) ∧ (p.errno ≠ .paused → ∃ o, (o = none ∨ o = some p.status) ∧ J o s)

theorem fail_phase {p : HParser} {s : σ} {e : Errno} (he : e ≠ .paused) {o : Option Nat} (h : J o s)
    (ho : o = none ∨ o = some p.status := by first | exact seen_or _ | exact Or.inr rfl | exact Or.inl rfl) : ResPhase J K (fail p s e) := ⟨fun h => absurd h he, fun _ => ⟨o, ho, h⟩⟩

theorem go_phase {p : HParser} {s : σ} {m : Marks} {n : Nat} (h1 : p.Phase) {o : Option Nat} (h : J o s) (ho : p.seen = o) : ResPhase J K (.go p s m n) := ⟨h1, ho ▸ h⟩

/-- A callback and what follows. -/
theorem cb_phase (ht : Tame cb) (hc : Phased cb J K) {c : Cb} {p : HParser} {s : σ} {a b : Option Nat} {n : Nat} {k : HParser → σ → Res σ}
    (he : p.errno = .ok) (hp : p.Phase) (hm : Move c p a b) (h : J a s) (hk : ∀ s, J b s → ResPhase J K (k p s)) :
    ResPhase J K (if (cb c (p.assert (p.errno == .ok)) s).1.errno ≠ .ok then .ret (cb c (p.assert (p.errno == .ok)) s).1 (cb c (p.assert (p.errno == .ok)) s).2 n
      else k (cb c (p.assert (p.errno == .ok)) s).1 (cb c (p.assert (p.errno == .ok)) s).2) := by
  rw [assert_ok he]
  obtain ⟨h1, h2⟩ := hc c p s a b he hp hm h
  rcases ht.tame c p s he with e | ⟨e, -⟩
  · rw [if_neg (by rw [e, he]; simp), e]
    exact hk _ (h1 (by rw [e]; exact he))
  · rw [if_pos (by rw [e]; simp)]
    exact ⟨fun _ => h2 e, fun hn => absurd e hn⟩

/-- A callback by which the function returns. -/
theorem ret_phase (ht : Tame cb) (hc : Phased cb J K) {c : Cb} {p : HParser} {s : σ} {a b : Option Nat} {n : Nat}
    (he : p.errno = .ok) (hp : p.Phase) (hm : Move c p a b) (h : J a s) :
    ResPhase J K (.ret (cb c (p.assert (p.errno == .ok)) s).1 (cb c (p.assert (p.errno == .ok)) s).2 n) := by
  rw [assert_ok he]
  obtain ⟨h1, h2⟩ := hc c p s a b he hp hm h
  rcases ht.tame c p s he with e | ⟨e, -⟩
  · exact ⟨h2, fun _ => ⟨b, by rw [e]; exact move_or hm, h1 (by rw [e]; exact he)⟩⟩
  · exact ⟨h2, fun hn => absurd e hn⟩

theorem new_seen (p : HParser) : ({ p with state := p.newMessage } : HParser).seen = none ∧ ({ p with state := p.newMessage } : HParser).Phase := by
  unfold HParser.newMessage
  split <;> exact ⟨rfl, trivial⟩

/-- The end of a message. -/
theorem complete_phase (ht : Tame cb) (hc : Phased cb J K) {p : HParser} {s : σ} {m : Marks} (he : p.errno = .ok) (h : J (some p.status) s) :
    ResPhase J K (notify cb .messageComplete { p with state := p.newMessage } s m) := by
  unfold notify
  obtain ⟨h1, h2⟩ := new_seen p
  generalize hq : ({ p with state := p.newMessage } : HParser) = q at h1 h2
  have hqe : q.errno = .ok := by subst hq; exact he
  have hqs : q.status = p.status := by subst hq; rfl
  exact cb_phase ht hc (k := fun q s => .go q s m 1) hqe h2 .complete (hqs ▸ h) fun s hs => ⟨h2, h1 ▸ hs⟩

theorem headersDone_phase (ht : Tame cb) (hc : Phased cb J K) {p : HParser} {s : σ} {m : Marks} {ch : Byte} (he : p.errno = .ok) (h : J (some p.status) s) :
    ResPhase J K (doHeadersDone cb p s m ch) := by
  unfold doHeadersDone
  split
  · exact fail_phase (by simp) h
  · dsimp only
    split
    · obtain ⟨h1, h2⟩ := new_seen { p with nread := 0 }
      generalize hq : ({ ({ p with nread := 0 } : HParser) with state := HParser.newMessage { p with nread := 0 } } : HParser) = q at h1 h2
      have hqe : q.errno = .ok := by subst hq; exact he
      have hqs : q.status = p.status := by subst hq; rfl
      have := ret_phase ht hc (n := 1) (s := s) hqe h2 .complete (hqs ▸ h)
      rw [assert_ok hqe] at this
      subst hq
      rw [assert_ok he]
      exact this
    · split
      · exact complete_phase ht hc (p := { p with nread := 0 }) he h
      · split
        · exact go_phase trivial h rfl
        · split
          · exact complete_phase ht hc (p := { p with nread := 0 }) he h
          · split
            · exact go_phase trivial h rfl
            · split
              · exact complete_phase ht hc (p := { p with nread := 0 }) he h
              · exact go_phase trivial h rfl

theorem headersAlmostDone_phase (ht : Tame cb) (hc : Phased cb J K) {p : HParser} {s : σ} {m : Marks} {ch : Byte} (he : p.errno = .ok) (hs : p.state = .headersAlmostDone) (h : J p.seen s) :
    ResPhase J K (doHeadersAlmostDone cb p s m ch) := by
  unfold doHeadersAlmostDone
  split
  · exact fail_phase (by simp) h
  · split
    · rename_i htr
      refine complete_phase ht hc he ?_
      have : p.seen = some p.status := by unfold HParser.seen HParser.told; rw [hs]; simp [htr]
      exact this ▸ h
    · rename_i htr
      have hse : p.seen = none := by unfold HParser.seen HParser.told; rw [hs]; simp [htr]
      rw [hse] at h
      have := cb_phase ht hc (c := .headersComplete) (p := { p with state := .headersDone, upgrade := p.fUpgrade }) (s := s) (n := 0)
        (k := fun q s => doHeadersDone cb q s m ch) he trivial (.headers rfl) h fun s hs => headersDone_phase ht hc he hs
      rw [assert_ok he] at this
      exact this

theorem fieldStart_phase (ht : Tame cb) (hc : Phased cb J K) {p : HParser} {s : σ} {m : Marks} {ch : Byte} (he : p.errno = .ok) (hs : p.state = .fieldStart) (h : J p.seen s) :
    ResPhase J K (doFieldStart cb p s m ch) := by
  have hse : ∀ q : HParser, q.state = .headersAlmostDone ∨ q.state = .field → q.fTrailing = p.fTrailing → q.status = p.status → q.seen = p.seen := by
    intro q h1 h2 h3
    unfold HParser.seen HParser.told
    rw [hs, h2, h3]
    rcases h1 with h1 | h1 <;> rw [h1]
  unfold doFieldStart
  split
  · exact go_phase trivial h (hse _ (Or.inl rfl) rfl rfl)
  · split
    · exact headersAlmostDone_phase ht hc he rfl (hse { p with state := .headersAlmostDone } (Or.inl rfl) rfl rfl ▸ h)
    · dsimp only
      split
      · exact fail_phase (by simp) h
      · exact go_phase trivial h (hse _ (Or.inr rfl) rfl rfl)

theorem dataField_phase (ht : Tame cb) (hc : Phased cb J K) {p : HParser} {s : σ} {m : Marks} (he : p.errno = .ok) (hp : p.Phase) (h : J p.seen s) : ResPhase J K (dataField cb p s m) := by
  unfold dataField
  split
  · exact go_phase hp h rfl
  · exact cb_phase ht hc (k := fun q s => .go q s { m with field := none } 1) he hp (.field _) h fun s hs => ⟨hp, hs⟩

theorem dataValue_phase (ht : Tame cb) (hc : Phased cb J K) {p : HParser} {s : σ} {m : Marks} (he : p.errno = .ok) (hp : p.Phase) (h : J p.seen s) : ResPhase J K (dataValue cb p s m) := by
  unfold dataValue
  split
  · exact go_phase hp h rfl
  · exact cb_phase ht hc (k := fun q s => .go q s { m with value := none } 1) he hp (.value _) h fun s hs => ⟨hp, hs⟩

theorem dataBody_phase (ht : Tame cb) (hc : Phased cb J K) {p : HParser} {s : σ} {m : Marks} (he : p.errno = .ok) (hp : p.Phase) (hs : p.seen = some p.status) (h : J p.seen s) :
    ResPhase J K (dataBody cb p s m) := by
  unfold dataBody
  split
  · exact go_phase hp h rfl
  · exact cb_phase ht hc (k := fun q s => .go q s { m with body := none } 1) he hp (.body _ hs) (hs ▸ h) fun s h => ⟨hp, hs ▸ h⟩

theorem matchStep_keeps (name : Bytes) (f : HState) (p : HParser) (c : Byte) :
    (matchStep name f p c).state = p.state ∧ (matchStep name f p c).fTrailing = p.fTrailing ∧ (matchStep name f p c).status = p.status := by
  unfold matchStep
  dsimp only
  split
  · exact ⟨rfl, rfl, rfl⟩
  · split <;> exact ⟨rfl, rfl, rfl⟩

theorem fieldChar_keeps (p : HParser) (c ch : Byte) : (fieldChar p c ch).state = p.state ∧ (fieldChar p c ch).fTrailing = p.fTrailing ∧ (fieldChar p c ch).status = p.status := by
  unfold fieldChar
  split
  all_goals first | exact ⟨rfl, rfl, rfl⟩ | exact matchStep_keeps .. | (split <;> exact ⟨rfl, rfl, rfl⟩)

theorem valueChar_keeps {p q : HParser} {c ch : Byte} (hs : p.state = .value) (h : valueChar p c ch = some q) : q.state = p.state ∧ q.fTrailing = p.fTrailing ∧ q.status = p.status := by
  have hm : ∀ name f, some (matchStep name f p c) = some q → q.state = p.state ∧ q.fTrailing = p.fTrailing ∧ q.status = p.status := by
    intro name f h
    have h := Option.some.inj h
    subst h
    exact matchStep_keeps ..
  unfold valueChar at h
  split at h
  · cases h; exact ⟨rfl, rfl, rfl⟩
  · cases h; exact ⟨rfl, rfl, rfl⟩
  · cases h; exact ⟨rfl, rfl, rfl⟩
  · split at h
    · cases h; exact ⟨rfl, rfl, rfl⟩
    · split at h
      · cases h
      · obtain ⟨t, -, rfl⟩ := addDigit_facts h
        exact ⟨rfl, rfl, rfl⟩
  · exact hm _ _ h
  · exact hm _ _ h
  · exact hm _ _ h
  · have h := Option.some.inj h
    subst h
    split <;> exact ⟨rfl, rfl, rfl⟩
  · have h := Option.some.inj h
    subst h
    split <;> exact ⟨rfl, rfl, rfl⟩
  · have h := Option.some.inj h
    subst h
    split <;> exact ⟨rfl, rfl, rfl⟩
  · have h := Option.some.inj h
    subst h
    exact ⟨hs.symm, rfl, rfl⟩

/-- The states in which headers and trailers are read. -/
def PState.inFields : PState → Bool
  | .fieldStart | .field | .valueStart | .value | .valueLws | .almostDone | .headersAlmostDone => true
  | _ => false

theorem fields_seen {p q : HParser} (hp : p.state.inFields = true) (hq : q.state.inFields = true) (h1 : q.fTrailing = p.fTrailing) (h2 : q.status = p.status) : q.seen = p.seen := by
  have key : ∀ r : HParser, r.state.inFields = true → r.seen = if r.fTrailing then some r.status else none := by
    intro r hr
    unfold HParser.seen HParser.told
    cases hs : r.state <;> rw [hs] at hr <;> first | rfl | cases hr
  rw [key p hp, key q hq, h1, h2]

theorem fields_phase {p : HParser} (hp : p.state.inFields = true) : p.Phase := by
  unfold HParser.Phase
  cases hs : p.state <;> rw [hs] at hp <;> first | trivial | cases hp

theorem almostDone_phase {p : HParser} {s : σ} {m : Marks} {ch : Byte} (hs : p.state.inFields = true) (h : J p.seen s) : ResPhase J K (doAlmostDone p s m ch) := by
  unfold doAlmostDone
  split
  · exact fail_phase (by simp) h
  · dsimp only
    split <;> exact go_phase trivial h (fields_seen hs rfl rfl rfl)

theorem doValue_phase (ht : Tame cb) (hc : Phased cb J K) {p : HParser} {s : σ} {m : Marks} {ch : Byte} (he : p.errno = .ok) (hs : p.state = .value) (h : J p.seen s) :
    ResPhase J K (doValue cb p s m ch) := by
  have hf : p.state.inFields = true := by rw [hs]; rfl
  have h' : J ({ p with state := .almostDone } : HParser).seen s := fields_seen (q := { p with state := .almostDone }) hf rfl rfl rfl ▸ h
  unfold doValue
  split
  · exact dataValue_phase ht hc he trivial h'
  · split
    · dsimp only
      split
      · exact almostDone_phase rfl h'
      · exact cb_phase ht hc (p := { p with state := .almostDone }) (k := fun q s => doAlmostDone q s { m with value := none } ch) he trivial (.value _) h' fun s hs => almostDone_phase rfl hs
    · split
      · exact fail_phase (by simp) h
      · rename_i hv
        obtain ⟨k1, k2, k3⟩ := valueChar_keeps hs hv
        exact go_phase (phase_congr k1 k2 (fields_phase hf)) h (seen_congr k1 k2 k3)

theorem assert_keeps (p : HParser) (c : Bool) : (p.assert c).state = p.state ∧ (p.assert c).fTrailing = p.fTrailing ∧ (p.assert c).status = p.status ∧ (p.assert c).errno = p.errno := by
  unfold HParser.assert; split <;> exact ⟨rfl, rfl, rfl, rfl⟩

theorem bodyIdentity_phase (ht : Tame cb) (hc : Phased cb J K) {p : HParser} {s : σ} {m : Marks} {rest : Bytes} (he : p.errno = .ok) (hs : p.state = .bodyIdentity) (h : J p.seen s) :
    ResPhase J K (doBodyIdentity cb p s m rest) := by
  unfold doBodyIdentity
  dsimp only
  generalize hp1 : HParser.assert p _ = p1
  have hk := assert_keeps p
  have e1 : p1.errno = .ok := by rw [← hp1, (hk _).2.2.2, he]
  have e2 : p1.state = .bodyIdentity := by rw [← hp1, (hk _).1, hs]
  have e3 : p.seen = some p1.status := by
    rw [← hp1, (hk _).2.2.1]
    unfold HParser.seen HParser.told
    rw [hs]; rfl
  rw [e3] at h
  split
  · refine cb_phase ht hc (p := { p1 with contentLength := p1.contentLength - min p.contentLength rest.length, state := .messageDone }) (n := min p.contentLength rest.length - 1)
      (k := fun q s => if (cb .messageComplete (HParser.assert { q with state := q.newMessage } (q.errno == .ok)) s).1.errno ≠ .ok then
        .ret (cb .messageComplete (HParser.assert { q with state := q.newMessage } (q.errno == .ok)) s).1 (cb .messageComplete (HParser.assert { q with state := q.newMessage } (q.errno == .ok)) s).2 (min p.contentLength rest.length)
        else .go (cb .messageComplete (HParser.assert { q with state := q.newMessage } (q.errno == .ok)) s).1 (cb .messageComplete (HParser.assert { q with state := q.newMessage } (q.errno == .ok)) s).2 ⟨m.field, m.value, none⟩ (min p.contentLength rest.length))
      e1 trivial (.body _ rfl) h fun s hs => ?_
    generalize hq : ({ p1 with contentLength := p1.contentLength - min p.contentLength rest.length, state := .messageDone } : HParser) = q at hs
    have hqe : q.errno = .ok := by subst hq; exact e1
    obtain ⟨h1, h2⟩ := new_seen q
    exact cb_phase ht hc (p := { q with state := q.newMessage }) (k := fun q s => .go q s ⟨m.field, m.value, none⟩ _) hqe h2 .complete hs fun s hs => ⟨h2, h1 ▸ hs⟩
  · refine go_phase ?_ h ?_
    · show HParser.Phase { p1 with contentLength := _ }
      unfold HParser.Phase
      dsimp only
      rw [e2]; trivial
    · unfold HParser.seen HParser.told
      dsimp only
      rw [e2]; rfl

theorem doField_phase (ht : Tame cb) (hc : Phased cb J K) {p : HParser} {s : σ} {m : Marks} {ch : Byte} (he : p.errno = .ok) (hs : p.state = .field) (h : J p.seen s) :
    ResPhase J K (doField cb p s m ch) := by
  have hf : p.state.inFields = true := by rw [hs]; rfl
  unfold doField
  dsimp only
  split
  · obtain ⟨k1, k2, k3⟩ := fieldChar_keeps p (token ch) ch
    exact go_phase (phase_congr k1 k2 (fields_phase hf)) h (seen_congr k1 k2 k3)
  · split
    · exact dataField_phase ht hc he trivial (fields_seen (q := { p with state := .valueStart }) hf rfl rfl rfl ▸ h)
    · split
      · exact dataField_phase ht hc he trivial (fields_seen (q := { p with state := .almostDone }) hf rfl rfl rfl ▸ h)
      · split
        · exact dataField_phase ht hc he trivial (fields_seen (q := { p with state := .fieldStart }) hf rfl rfl rfl ▸ h)
        · exact fail_phase (by simp) h

theorem doValueStart_phase (ht : Tame cb) (hc : Phased cb J K) {p : HParser} {s : σ} {m : Marks} {ch : Byte} (he : p.errno = .ok) (hs : p.state = .valueStart) (h : J p.seen s) :
    ResPhase J K (doValueStart cb p s m ch) := by
  have hf : p.state.inFields = true := by rw [hs]; rfl
  unfold doValueStart
  dsimp only
  split
  · exact go_phase (fields_phase hf) h rfl
  · split
    · exact dataValue_phase ht hc (p := { p with state := .almostDone, hstate := .general, index := 0 }) he trivial (fields_seen (q := { p with state := .almostDone, hstate := .general, index := 0 }) hf rfl rfl rfl ▸ h)
    · split
      · exact dataValue_phase ht hc (p := { p with state := .fieldStart, index := 0 }) he trivial (fields_seen (q := { p with state := .fieldStart, index := 0 }) hf rfl rfl rfl ▸ h)
      · split
        all_goals first
          | exact go_phase trivial h (fields_seen hf rfl rfl rfl)
          | (split
             · exact fail_phase (by simp) h
             · exact go_phase trivial h (fields_seen hf rfl rfl rfl))

/-- The states in which the status line is read. -/
def PState.inLine : PState → Bool
  | .resH | .resHT | .resHTT | .resHTTP | .firstMajor | .major | .firstMinor | .minor | .firstStatus | .status | .statusText | .lineAlmostDone => true
  | _ => false

theorem line_seen {p : HParser} (h : p.state.inLine = true) : p.seen = none := by
  unfold HParser.seen HParser.told
  cases hs : p.state <;> rw [hs] at h <;> first | rfl | cases h

theorem line_trailing {p : HParser} (h : p.state.inLine = true) (hp : p.Phase) : p.fTrailing = false := by
  unfold HParser.Phase at hp
  cases hs : p.state <;> rw [hs] at h hp <;> first | exact hp | cases h

theorem line_phase {p : HParser} (h : p.state.inLine = true) (hp : p.fTrailing = false) : p.Phase := by
  unfold HParser.Phase
  cases hs : p.state <;> rw [hs] at h <;> first | exact hp | cases h

/-- The states of the body. -/
def PState.inBody : PState → Bool
  | .headersDone | .chunkSizeStart | .chunkSize | .chunkParams | .chunkSizeAlmostDone | .chunkData | .chunkDataAlmostDone | .chunkDataDone | .bodyIdentity | .bodyEof | .messageDone => true
  | _ => false

theorem inBody_seen {p : HParser} (h : p.state.inBody = true) : p.seen = some p.status := by
  unfold HParser.seen HParser.told
  cases hs : p.state <;> rw [hs] at h <;> first | rfl | cases h

theorem inBody_phase {p : HParser} (h : p.state.inBody = true) : p.Phase := by
  unfold HParser.Phase
  cases hs : p.state <;> rw [hs] at h <;> first | trivial | cases h

theorem line_go {p q : HParser} {s : σ} {m : Marks} {n : Nat} (hl : p.state.inLine = true) (hp : p.Phase) (h : J p.seen s) (hq : q.state.inLine = true) (ht : q.fTrailing = p.fTrailing) :
    ResPhase J K (.go q s m n) :=
  go_phase (line_phase hq (ht.trans (line_trailing hl hp))) h ((line_seen hq).trans (line_seen hl).symm)

theorem line_end {p q : HParser} {s : σ} {m : Marks} {n : Nat} (hl : p.state.inLine = true) (hp : p.Phase) (h : J p.seen s) (hq : q.state = .fieldStart) (ht : q.fTrailing = p.fTrailing) :
    ResPhase J K (.go q s m n) := by
  refine go_phase (fields_phase (by rw [hq]; rfl)) h ?_
  rw [line_seen hl]
  unfold HParser.seen HParser.told
  rw [hq]
  simp only [ht, line_trailing hl hp]
  rfl

theorem body_go {p q : HParser} {s : σ} {m : Marks} {n : Nat} (hl : p.state.inBody = true) (h : J p.seen s) (hq : q.state.inBody = true) (ht : q.status = p.status) :
    ResPhase J K (.go q s m n) :=
  go_phase (inBody_phase hq) h ((inBody_seen hq).trans (ht ▸ (inBody_seen hl).symm))

theorem switch_line (ht : Tame cb) (hc : Phased cb J K) {p : HParser} {s : σ} {m : Marks} {ch : Byte} {rest : Bytes} (hl : p.state.inLine = true) (hp : p.Phase) (h : J p.seen s) :
    ResPhase J K (switch cb p s m ch rest) := by
  have go : ∀ (q : HParser) n, q.state.inLine = true → q.fTrailing = p.fTrailing → ResPhase J K (.go q s m n) := fun q n h1 h2 => line_go hl hp h h1 h2
  have out : ∀ (q : HParser) n, q.state = .fieldStart → q.fTrailing = p.fTrailing → ResPhase J K (.go q s m n) := fun q n h1 h2 => line_end hl hp h h1 h2
  have bad : ∀ (q : HParser) e, e ≠ .paused → ResPhase J K (fail q s e) := fun q e he => fail_phase he h (Or.inl (line_seen hl))
  unfold switch
  split <;> first
    | (rename_i hs; rw [hs] at hl; cases hl; done)
    | (rename_i hs
       (try dsimp only)
       repeat' split
       all_goals first
         | (refine bad _ _ ?_; simp; done)
         | exact go _ _ rfl rfl
         | exact go _ _ hl rfl
         | exact out _ _ rfl rfl)

theorem switch_body (ht : Tame cb) (hc : Phased cb J K) {p : HParser} {s : σ} {m : Marks} {ch : Byte} {rest : Bytes} (he : p.errno = .ok) (hl : p.state.inBody = true) (h : J p.seen s) :
    ResPhase J K (switch cb p s m ch rest) := by
  have go : ∀ (q : HParser) m n, q.state.inBody = true → q.status = p.status → ResPhase J K (.go q s m n) := fun q m n h1 h2 => body_go hl h h1 h2
  have bad : ∀ (q : HParser) e, e ≠ .paused → q.status = p.status → ResPhase J K (fail q s e) := fun q e he hq => fail_phase he h (by rw [hq]; exact seen_or p)
  have hh : J (some p.status) s := inBody_seen hl ▸ h
  have hak := assert_keeps p
  unfold switch
  split <;> first
    | (rename_i hs; rw [hs] at hl; cases hl; done)
    | exact headersDone_phase ht hc he hh
    | exact complete_phase ht hc he hh
    | (rename_i hs; exact bodyIdentity_phase ht hc he hs h)
    | exact go _ _ _ hl rfl
    | skip
  all_goals (try dsimp only)
  · split
    · exact bad _ _ (by simp) (hak _).2.2.1
    · exact go _ _ _ rfl (hak _).2.2.1
  · split
    · exact go _ _ _ rfl (hak _).2.2.1
    · split
      · split
        · exact go _ _ _ rfl (hak _).2.2.1
        · exact bad _ _ (by simp) (hak _).2.2.1
      · split
        · exact bad _ _ (by simp) (hak _).2.2.1
        · rename_i hd
          obtain ⟨t, -, rfl⟩ := addDigit_facts hd
          exact go _ _ _ ((hak _).1 ▸ hl) (hak _).2.2.1
  · split
    · exact go _ _ _ rfl (hak _).2.2.1
    · exact go _ _ _ ((hak _).1 ▸ hl) (hak _).2.2.1
  · split
    · exact bad _ _ (by simp) (hak _).2.2.1
    · split
      · refine go_phase trivial hh ?_
        unfold HParser.seen HParser.told
        simp [(hak _).2.2.1]
      · exact go _ _ _ rfl (hak _).2.2.1
  · unfold doChunkData
    dsimp only
    refine go _ _ _ ?_ ?_
    · split
      · rfl
      · exact (hak _).1 ▸ hl
    · split <;> exact (hak _).2.2.1
  · split
    · exact bad _ _ (by simp) (hak _).2.2.1
    · have hse : ({ (p.assert (p.fChunked && p.contentLength == 0)) with state := .chunkDataDone } : HParser).seen = some p.status := by
        rw [inBody_seen rfl]
        exact congrArg some (hak _).2.2.1
      exact dataBody_phase ht hc ((hak _).2.2.2.trans he) trivial (inBody_seen rfl) (hse ▸ hh)
  · split
    · exact bad _ _ (by simp) (hak _).2.2.1
    · exact go _ _ _ rfl (hak _).2.2.1

/-- One pass through the switch. -/
theorem switch_phase (ht : Tame cb) (hc : Phased cb J K) {p : HParser} {s : σ} {m : Marks} {ch : Byte} {rest : Bytes} (he : p.errno = .ok) (hp : p.Phase) (h : J p.seen s) :
    ResPhase J K (switch cb p s m ch rest) := by
  by_cases h1 : p.state.inLine = true
  · exact switch_line ht hc h1 hp h
  by_cases h2 : p.state.inBody = true
  · exact switch_body ht hc he h2 h
  unfold switch
  split <;> first
    | (rename_i hs; rw [hs] at h1; exact absurd rfl h1)
    | (rename_i hs; rw [hs] at h2; exact absurd rfl h2)
    | (rename_i hs; exact fieldStart_phase ht hc he hs h)
    | (rename_i hs; exact doField_phase ht hc he hs h)
    | (rename_i hs; exact doValueStart_phase ht hc he hs h)
    | (rename_i hs; exact doValue_phase ht hc he hs h)
    | (rename_i hs; exact almostDone_phase (by rw [hs]; rfl) h)
    | (rename_i hs; exact headersAlmostDone_phase ht hc he hs h)
    | skip
  · split
    · exact go_phase hp h rfl
    · exact fail_phase (by simp) h
  · rename_i hs
    have hn : p.seen = none := by unfold HParser.seen HParser.told; rw [hs]; rfl
    rw [hn] at h
    dsimp only
    split
    · unfold notify
      exact cb_phase ht hc (k := fun q s => .go q s m 1) he rfl (.begin rfl) h fun s h => ⟨rfl, h⟩
    · split
      · have hx : ∀ q : HParser, q.state = .startRes → q.seen = none ∧ q.Phase := by
          intro q hq
          unfold HParser.seen HParser.told HParser.Phase; rw [hq]; exact ⟨rfl, trivial⟩
        unfold notify
        generalize hq : (HParser.mk p.state p.hstate _ _ _ _ _ _ _ _ _ _ _ _ _ _ _) = q
        obtain ⟨x1, x2⟩ := hx q (by subst hq; exact hs)
        exact cb_phase ht hc (k := fun q s => .go q s m 1) (by subst hq; exact he) x2 (.begin x1) h fun s h => ⟨x2, x1 ▸ h⟩
      · exact fail_phase (by simp) h
  · rename_i hs
    have hf : p.state.inFields = true := by rw [hs]; rfl
    split
    · exact go_phase trivial h (fields_seen hf rfl rfl rfl)
    · exact fieldStart_phase ht hc he rfl (fields_seen (q := { p with state := .fieldStart }) hf rfl rfl rfl ▸ h)

/-- What is known of the end of a call to the parser. -/
def EndPhase (J : Option Nat → σ → Prop) (K : HParser → σ → Prop) (p : HParser) (s : σ) : Prop :=
  (p.errno = .paused → K p s) ∧ (p.errno = .ok → p.Phase ∧ J p.seen s) ∧ (p.errno ≠ .paused → ∃ o, (o = none ∨ o = some p.status) ∧ J o s)

theorem cb_end (ht : Tame cb) (hc : Phased cb J K) {c : Cb} {p : HParser} {s : σ} {a b : Option Nat} (he : p.errno = .ok) (hp : p.Phase) (hm : Move c p a b) (h : J a s) (hb : b = p.seen) :
    EndPhase J K (cb c p s).1 (cb c p s).2 := by
  obtain ⟨h1, h2⟩ := hc c p s a b he hp hm h
  rcases ht.tame c p s he with e | ⟨e, -⟩
  · have := h1 (by rw [e]; exact he)
    refine ⟨h2, fun _ => ?_, fun _ => ⟨b, by rw [e]; exact move_or hm, this⟩⟩
    rw [e]
    exact ⟨hp, hb ▸ this⟩
  · exact ⟨h2, fun hx => (by rw [e] at hx; cases hx), fun hx => absurd e hx⟩

theorem end_refl {p : HParser} {s : σ} (he : p.errno ≠ .paused) (hp : p.Phase) (h : J p.seen s) : EndPhase J K p s :=
  ⟨fun h => absurd h he, fun _ => ⟨hp, h⟩, fun _ => ⟨_, seen_or p, h⟩⟩

theorem leftover_phase (ht : Tame cb) (hc : Phased cb J K) {p : HParser} {s : σ} {m : Marks} (hm : MOk p m) (he : p.errno = .ok) (hp : p.Phase) (h : J p.seen s) :
    EndPhase J K (leftover cb p s m).1 (leftover cb p s m).2 := by
  by_cases h1 : p.state = .field
  · obtain ⟨x, rfl⟩ := marks_field hm h1
    have := cb_end ht hc he hp (.field x) h rfl
    unfold leftover
    simp [HParser.assert, he]
    exact this
  by_cases h2 : p.state = .value
  · obtain ⟨x, rfl⟩ := marks_value hm h2
    have := cb_end ht hc he hp (.value x) h rfl
    unfold leftover
    simp [HParser.assert, he]
    exact this
  obtain ⟨f, v, b⟩ := m
  have e1 := hm.field; have e2 := hm.value; have e3 := hm.body
  cases f <;> cases v <;> simp [h1, h2] at e1 e2
  cases b with
  | none =>
    unfold leftover
    simp [HParser.assert, he]
    exact end_refl (by rw [he]; simp) hp h
  | some x =>
    have hb : p.state.inBody = true := by
      rcases e3 rfl with e | e | e | e <;> rw [e] <;> rfl
    have := cb_end ht hc he hp (.body x (inBody_seen hb)) (inBody_seen hb ▸ h) (inBody_seen hb).symm
    unfold leftover
    simp [HParser.assert, he]
    exact this

theorem execLoop_phase (ht : Tame cb) (hc : Phased cb J K) : ∀ (data : Bytes) (p : HParser) (s : σ) (m : Marks) (pos : Nat), MOk p m → p.errno = .ok → Good 0 p → p.Phase → J p.seen s →
    EndPhase J K (execLoop cb p s m data pos).1 (execLoop cb p s m data pos).2.1
  | [], p, s, m, pos, hm, he, hg, hp, h => by
    rw [execLoop_nil]
    exact leftover_phase ht hc hm he hp h
  | ch :: tl, p, s, m, pos, hm, he, hg, hp, h => by
    rw [execLoop_cons]
    have hgc := counted_good hg
    have hce : (counted p).errno = .ok := (counted_facts p).2.trans he
    have hcs := hm.counted
    have hcp : (counted p).Phase := by unfold counted; split <;> exact hp
    have hcj : J (counted p).seen s := by unfold counted; split <;> exact h
    generalize counted p = q at hgc hce hcs hcp hcj ⊢
    split
    · exact ⟨fun h => by simp at h, fun h => by simp at h, fun _ => ⟨_, seen_or q, hcj⟩⟩
    · have hsm := switch_safe ht (s := s) (ch := ch) (rest := ch :: tl) hcs hce hgc
      have hsg := switch_good ht (s := s) (m := m) (ch := ch) (tl := tl) hgc hce
      have hsp := switch_phase ht hc (s := s) (m := m) (ch := ch) (rest := ch :: tl) hce hcp hcj
      revert hsm hsg hsp
      cases switch cb q s m ch (ch :: tl) with
      | ret p1 s1 n1 =>
        rintro _ ⟨h1, h2, h3⟩ ⟨h4, h5⟩
        exact ⟨h4, fun h => absurd h h1, h5⟩
      | go p1 s1 m1 n1 =>
        rintro h3 ⟨h5, h6, _⟩ ⟨h7, h8⟩
        exact execLoop_phase ht hc _ _ _ _ _ (adv_ok h3 _) h6 h5 h7 h8
termination_by data => data.length
decreasing_by simp; omega

/-- **The callbacks come in order.** -/
theorem execute_phase (ht : Tame cb) (hc : Phased cb J K) {p : HParser} {s : σ} (hg : Safe p) (hp : p.Phase) (he : p.errno ≠ .paused) (h : J p.seen s) (data : Bytes) :
    EndPhase J K (execute cb p s data).1 (execute cb p s data).2.1 := by
  unfold execute
  split
  · exact end_refl he hp h
  · rename_i he
    have he : p.errno = .ok := Decidable.not_not.1 he
    split
    · split
      · rename_i hs
        dsimp only
        have hb : p.seen = some p.status := inBody_seen (by rw [hs]; rfl)
        obtain ⟨h1, h2⟩ := hc .messageComplete p s (some p.status) none he hp .complete (hb ▸ h)
        have hd := ht.done p s he
        refine ⟨h2, fun h => absurd h hd, fun h => ⟨none, Or.inl rfl, h1 ?_⟩⟩
        rcases ht.tame .messageComplete p s he with e | ⟨e, -⟩
        · rw [e]; exact he
        · exact absurd e h
      · exact end_refl (by rw [he]; simp) hp h
      · exact end_refl (by rw [he]; simp) hp h
      · exact ⟨fun h => by simp at h, fun h => by simp at h, fun _ => ⟨_, seen_or p, h⟩⟩
    · exact execLoop_phase ht hc _ _ _ _ _ (fresh_ok p) he (hg.2 (Or.inl he)) hp h

end
end Pillow

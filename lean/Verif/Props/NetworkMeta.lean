import Verif.Spec.NetworkMeta
import Verif.Props.NetworkReply
import Verif.Props.Forward
import Verif.Props.Exchange
import Verif.Props.Cut
set_option linter.unusedSimpArgs false
set_option linter.unusedVariables false
/-!
# C68: requests through the access manager; C69: what its replies tell
-/
namespace Pillow.Props
open Pillow Pillow.Spec

/-! ## C68 -/

theorem lastOfEach_sub {hs ks : Headers} (h : LastOfEach hs ks) : ∀ x ∈ ks, x ∈ hs := by
  induction h with
  | nil => simp
  | keep h hs ks _ _ ih => intro x hx; rcases List.mem_cons.1 hx with rfl | hx <;> simp [*]
  | drop h hs ks _ _ ih => intro x hx; simp [ih x hx]

theorem lastOfEach_apart {hs ks : Headers} (h : LastOfEach hs ks) : ks.Pairwise fun x y => ¬ SameCI x.name y.name := by
  induction h with
  | nil => exact .nil
  | keep h hs ks hne hl ih => exact List.pairwise_cons.2 ⟨fun y hy e => hne y (lastOfEach_sub hl y hy) e.symm, ih⟩
  | drop h hs ks _ _ ih => exact ih

theorem rawHeader_of_apart : ∀ {ks : Headers}, ks.Pairwise (fun x y => ¬ SameCI x.name y.name) → (∀ x ∈ ks, NameOk x) → ∀ h ∈ ks, rawHeader ks h.name = h.value
  | [], _, _, h, hh => by cases hh
  | k :: ks, hp, hn, h, hh => by
    obtain ⟨h1, h2⟩ := List.pairwise_cons.1 hp
    unfold rawHeader
    rw [List.find?_cons]
    have hq := qstricmpEq_ascii k.name h.name (hn k (by simp)).2 (hn h hh).2
    rcases List.mem_cons.1 hh with rfl | hh
    · have : qstricmpEq h.name h.name = true := hq.2 rfl
      simp [this]
    · have : qstricmpEq k.name h.name = false := by
        cases e : qstricmpEq k.name h.name
        · rfl
        · exact absurd (hq.1 e) (h1 h hh)
      rw [this]
      exact rawHeader_of_apart h2 (fun x hx => hn x (by simp [hx])) h hh

theorem cookieLoop_succ : ∀ (ks : List Bytes) (i : Nat) (acc : Bytes), cookieLoop (i + 1) acc ks = acc ++ (ks.map fun k => b!"; " ++ k).flatten
  | [], _, _ => by simp [cookieLoop]
  | k :: ks, i, acc => by
    rw [cookieLoop, cookieLoop_succ ks (i + 1)]
    simp

theorem joined_cons (k : Bytes) : ∀ ks : List Bytes, joined (k :: ks) = k ++ (ks.map fun k => b!"; " ++ k).flatten
  | [] => by simp [joined]
  | k' :: ks => by
    rw [joined, joined_cons k' ks]
    · simp
    · simp

theorem cookieLoop_joined (ks : List Bytes) : cookieLoop 0 [] ks = joined ks := by
  cases ks with
  | nil => rfl
  | cons k ks => rw [cookieLoop, cookieLoop_succ, joined_cons]; rfl

theorem joined_ne {ks : List Bytes} (h : ∀ k ∈ ks, k ≠ []) : joined ks = [] ↔ ks = [] := by
  cases ks with
  | nil => simp [joined]
  | cons k ks =>
    rw [joined_cons]
    have := h k (by simp)
    simp [this]

/-- **C68**: a request for an http url that is one of the operations Qt knows makes a client ask for exactly that (the raw form of a cookie contains `=`, so it is not empty). -/
theorem C68_asks (op : NOp) (hop : op ≠ .unknown) (r : NRequest) (hs : SameCI r.scheme b!"http") (hn : ∀ h ∈ r.set, NameOk h) (cookies : List Bytes) (hc : ∀ k ∈ cookies, k ≠ [])
    (data : Option Bytes) : ∃ out, createRequest op r cookies data = .client out ∧ AsksFor op r cookies data out := by
  have hl := rawHeaders_last r.set hn
  have hraw : (rawHeaders r.set).map (fun h => (⟨h.name, rawHeader (rawHeaders r.set) h.name⟩ : Header)) = rawHeaders r.set := by
    conv => rhs; rw [← List.map_id (rawHeaders r.set)]
    apply List.map_congr_left
    intro h hh
    rw [rawHeader_of_apart (lastOfEach_apart hl) (fun x hx => hn x (lastOfEach_sub hl x hx)) h hh]
    rfl
  have hsch : ¬ ((!asciiEqualsCILower r.scheme b!"http") = true) := by
    rw [(asciiEqualsCILower_iff r.scheme b!"http" (by decide)).2 hs]; decide
  have hck : (if joined cookies ≠ [] then rawHeaders r.set ++ [⟨b!"Cookie", joined cookies⟩] else rawHeaders r.set) = rawHeaders r.set ++ cookieLine cookies := by
    unfold cookieLine
    by_cases e : cookies = []
    · rw [if_neg (by simp [(joined_ne hc).2 e]), if_pos e, List.append_nil]
    · rw [if_pos (fun k => e ((joined_ne hc).1 k)), if_neg e]
  unfold createRequest
  rw [if_neg hsch]
  dsimp only
  rw [hraw, cookieLoop_joined, hck]
  cases op with
  | unknown => exact absurd rfl hop
  | _ => exact ⟨_, rfl, ⟨rfl, rfl, ⟨_, hl, rfl⟩, by simp [Uploads]⟩⟩

/-- C68: other schemes are left to Qt. -/
theorem C68_schemes (op : NOp) (r : NRequest) (cookies : List Bytes) (data : Option Bytes) : createRequest op r cookies data = .qt ↔ ¬ SameCI r.scheme b!"http" := by
  have e := asciiEqualsCILower_iff r.scheme b!"http" (by decide)
  unfold createRequest
  by_cases h : SameCI r.scheme b!"http"
  · have := e.2 h
    cases op <;> simp [this, h]
  · have : asciiEqualsCILower r.scheme b!"http" = false := by
      cases k : asciiEqualsCILower r.scheme b!"http"
      · rfl
      · exact absurd (e.1 k) h
    simp [this, h]

/-- **C68** with C58: a handler of this library at the other end is shown the request of the application: `Host` first, then of the headers that were set the last of each name, then the
cookies; and the data. (`Delivered` by `C58_requests`, for every request a client has written.) -/
theorem C68_server (op : NOp) (r : NRequest) (cookies : List Bytes) (data : Option Bytes) (out : ClientRequest) (ha : AsksFor op r cookies data out) (v : ReqView) (hv : Delivered out v) :
    v.method = methodOf r op ∧ v.uri = r.url.path ++ (if r.url.query = [] then [] else b!"?" ++ r.url.query) ∧ (Uploads op → v.content = data.getD []) ∧ (¬ Uploads op → v.content = []) ∧
      ∃ host own len, HostValue r.url host ∧ LastOfEach r.set own ∧ readNat 10 len = some v.content.length ∧
        v.headers = [⟨b!"Host", host⟩] ++ own ++ cookieLine cookies ++ (if v.content = [] then [] else [⟨b!"Content-Length", len⟩]) := by
  obtain ⟨host, hh, h1, h2, -, -, h5, -, len, h6, h7⟩ := hv
  obtain ⟨a1, a2, ⟨own, a3, a4⟩, a5⟩ := ha
  have hc : v.content = out.data := h5
  refine ⟨by rw [h1, ← a1]; rfl, by rw [h2, ← a2]; rfl, ?_, ?_, host, own, len, by rw [← a2]; exact hh, a3, by rw [hc]; exact h6, ?_⟩
  · rw [hc]; exact a5.1
  · rw [hc]; exact a5.2
  · rw [h7, hc]
    show (⟨b!"Host", host⟩ :: out.headers) ++ _ = _
    rw [a4]
    simp [outgoing]

def demoAsk : NRequest := { url := { host := b!"h", path := b!"/" }, set := [⟨b!"Accept", b!"*"⟩, ⟨b!"X", b!"1"⟩, ⟨b!"x", b!"2"⟩] }

theorem demoAsk_names : ∀ h ∈ demoAsk.set, NameOk h := by
  simp only [demoAsk, List.mem_cons, List.not_mem_nil, or_false, NameOk]
  rintro h (rfl | rfl | rfl) <;> exact ⟨by decide, by decide⟩

/-- The hypotheses of `C68_asks`, and its outcome: a header that was set twice and two cookies. -/
example : SameCI demoAsk.scheme b!"http" ∧ (∀ h ∈ demoAsk.set, NameOk h) ∧
    createRequest .post demoAsk [b!"a=1", b!"b=2"] (some b!"hi") =
      .client { method := some b!"POST", url := { host := b!"h", path := b!"/" }, headers := [⟨b!"Accept", b!"*"⟩, ⟨b!"x", b!"2"⟩, ⟨b!"Cookie", b!"a=1; b=2"⟩], data := b!"hi" } := by
  exact ⟨by decide, demoAsk_names, by decide +kernel⟩

/-- The hypotheses of `C68_server`. -/
example : ∃ out v, AsksFor .post demoAsk [b!"a=1", b!"b=2"] (some b!"hi") out ∧ Delivered out v := by
  obtain ⟨out, h1, h2⟩ := C68_asks .post (by decide) demoAsk (by decide) demoAsk_names [b!"a=1", b!"b=2"] (by decide) (some b!"hi")
  have e : createRequest .post demoAsk [b!"a=1", b!"b=2"] (some b!"hi") =
      .client { method := some b!"POST", url := { host := b!"h", path := b!"/" }, headers := [⟨b!"Accept", b!"*"⟩, ⟨b!"x", b!"2"⟩, ⟨b!"Cookie", b!"a=1; b=2"⟩], data := b!"hi" } := by decide +kernel
  rw [e] at h1
  injection h1 with h1
  subst h1
  refine ⟨_, { method := b!"POST", uri := b!"/", path := b!"/", version := b!"HTTP/1.1", content := b!"hi", headers := [⟨b!"Host", b!"h"⟩, ⟨b!"Accept", b!"*"⟩, ⟨b!"x", b!"2"⟩, ⟨b!"Cookie", b!"a=1; b=2"⟩, ⟨b!"Content-Length", b!"2"⟩] }, h2, b!"h", .inl ⟨rfl, rfl⟩, rfl, rfl, rfl, rfl, rfl,
    ⟨⟨[], rfl, .nil⟩, .inl ⟨rfl, by decide⟩⟩, b!"2", by decide, by decide +kernel⟩

/-- C68 is false of the code when the application sets a cookie itself and the jar has one too: two `Cookie` headers are sent, although there may only be one (RFC 6265, 5.4). -/
theorem C68_two_cookies : createRequest .get { set := [⟨b!"Cookie", b!"a=1"⟩] } [b!"b=2"] none =
    .client { method := some b!"GET", headers := [⟨b!"Cookie", b!"a=1"⟩, ⟨b!"Cookie", b!"b=2"⟩] } := by decide +kernel

/-! ## C69 -/

theorem kept_filter {hs last : Headers} (hl : LastOfEach hs last) (hp : ∀ x ∈ hs, NameOk x) (n : Header) (hn : NameOk n) :
    ∃ last', LastOfEach (hs ++ [n]) last' ∧ setReplyHeader (last.filter fun h => h.value ≠ []) n = last'.filter fun h => h.value ≠ [] := by
  refine ⟨_, lastOfEach_filter hl hp n hn, ?_⟩
  unfold setReplyHeader
  rw [if_neg hn.1]
  have hcomm : (last.filter fun h => h.value ≠ []).filter (fun x => !qstricmpEq x.name n.name) = (last.filter fun x => !qstricmpEq x.name n.name).filter fun h => h.value ≠ [] := by
    rw [List.filter_filter, List.filter_filter]
    congr 1
    funext x
    rw [Bool.and_comm]
  split
  · rename_i e
    rw [hcomm, List.filter_append]
    simp [e]
  · rename_i e
    rw [setRawHeader, if_neg hn.1, hcomm, List.filter_append]
    simp [e]

/-- What the loop over the headers of a response does. -/
theorem header_loop (env : CookieEnv) (m : NMeta) (hm : m.rawHeaders = []) (hr : m.redirection = none) (hs : Headers) (hp : ∀ x ∈ hs, NameOk x) :
    ∃ raw, Kept hs raw ∧ hs.foldl (NMeta.header env) (m, []) = ({ m with rawHeaders := raw, redirection := locationOf hs }, cookiesOf env hs) := by
  induction hs using list_snoc_ind with
  | h0 =>
    refine ⟨[], ⟨[], .nil, rfl⟩, ?_⟩
    simp only [List.foldl_nil, cookiesOf, locationOf, List.filter_nil, List.map_nil, List.flatten_nil, List.getLast?_nil, Option.map_none]
    obtain ⟨⟩ := m
    simp only at hm hr
    subst hm hr
    rfl
  | h1 hs n ih =>
    obtain ⟨raw, ⟨last, k1, rfl⟩, k2⟩ := ih (fun x hx => hp x (by simp [hx]))
    obtain ⟨last', k3, k4⟩ := kept_filter k1 (fun x hx => hp x (by simp [hx])) n (hp n (by simp))
    refine ⟨_, ⟨last', k3, rfl⟩, ?_⟩
    rw [List.foldl_append, k2]
    simp only [List.foldl_cons, List.foldl_nil, NMeta.header]
    rw [k4]
    have h1 : asciiEqualsCILower n.name b!"set-cookie" = true ↔ SameCI n.name b!"set-cookie" := asciiEqualsCILower_iff _ _ (by decide)
    have h2 : asciiEqualsCILower n.name b!"location" = true ↔ SameCI n.name b!"location" := asciiEqualsCILower_iff _ _ (by decide)
    by_cases e1 : SameCI n.name b!"set-cookie"
    · rw [if_pos (h1.2 e1)]
      have e2 : ¬ SameCI n.name b!"location" := by
        unfold SameCI at e1 ⊢
        rw [e1]; decide
      simp [cookiesOf, locationOf, e1, e2, List.filter_append]
    · rw [if_neg (fun k => e1 (h1.1 k))]
      by_cases e2 : SameCI n.name b!"location"
      · rw [if_pos (h2.2 e2)]
        simp [cookiesOf, locationOf, e1, e2, List.filter_append]
      · rw [if_neg (fun k => e2 (h2.1 k))]
        simp [cookiesOf, locationOf, e1, e2, List.filter_append]

/-- C69: what a reply tells when it emits `metaDataChanged()`. -/
theorem C69_headers (env : CookieEnv) (status : Nat) (hs : Headers) (hp : ∀ x ∈ hs, NameOk x) : Tells env status hs (replyTo env [.headersCompleted status hs]) := by
  obtain ⟨raw, k1, k2⟩ := header_loop env { status := some status } rfl rfl hs hp
  have e : replyTo env [.headersCompleted status hs] = NMeta.headersCompleted env status hs {} := rfl
  rw [e]
  unfold NMeta.headersCompleted
  dsimp only
  rw [k2]
  dsimp only
  by_cases h : cookiesOf env hs ≠ [] ∧ env.render (cookiesOf env hs) ≠ []
  · rw [if_pos h]
    refine ⟨rfl, ?_, rfl, rfl⟩
    unfold ShownHeaders
    rw [if_neg (by simpa [not_or] using h)]
    refine ⟨raw, k1, ?_⟩
    dsimp only
    rw [setRawHeader, if_neg (by simp)]
    congr 1
    apply List.filter_congr
    intro x hx
    obtain ⟨last, k3, rfl⟩ := k1
    have hx' := lastOfEach_sub k3 x (List.mem_filter.1 hx).1
    have hq := qstricmpEq_ascii x.name b!"Set-Cookie" (hp x hx').2 (by decide)
    have hq' : SameCI x.name b!"Set-Cookie" ↔ SameCI x.name b!"set-cookie" := by
      unfold SameCI
      rw [show (b!"Set-Cookie").map lower = (b!"set-cookie").map lower by decide]
    rw [hq'] at hq
    by_cases e : SameCI x.name b!"set-cookie"
    · simp [hq.2 e, e]
    · have : qstricmpEq x.name b!"Set-Cookie" = false := by
        cases e' : qstricmpEq x.name b!"Set-Cookie"
        · rfl
        · exact absurd (hq.1 e') e
      simp [this, e]
  · rw [if_neg h]
    refine ⟨rfl, ?_, rfl, rfl⟩
    unfold ShownHeaders
    rw [if_pos (by
      rcases Decidable.not_and_iff_or_not.1 h with h | h
      · exact .inl (Decidable.not_not.1 h)
      · exact .inr (Decidable.not_not.1 h))]
    exact k1

/-- Nothing but content. -/
theorem reply_quiet (env : CookieEnv) : ∀ (l : List CEv) (m : NMeta), signals l = [] → ∃ s, l.foldl (NMeta.step env) m = { m with signals := m.signals ++ s } ∧ turns s = []
  | [], m, _ => ⟨[], by simp, rfl⟩
  | e :: l, m, h => by
    have h0 : signals [e] = [] ∧ signals l = [] := by
      rw [show e :: l = [e] ++ l from rfl, signals_append] at h
      exact List.append_eq_nil_iff.1 h
    rw [List.foldl_cons]
    have hstep : ∃ s, NMeta.step env m e = { m with signals := m.signals ++ s } ∧ turns s = [] := by
      cases e with
      | headersCompleted => simp [signals] at h0
      | finished => simp [signals] at h0
      | contentReadyRead ct =>
        unfold NMeta.step
        dsimp only
        split
        · exact ⟨[.readyRead], rfl, by decide⟩
        · exact ⟨[], by simp, rfl⟩
      | _ => exact ⟨[], by simp [NMeta.step], rfl⟩
    obtain ⟨s, e1, e2⟩ := hstep
    rw [e1]
    obtain ⟨s', e3, e4⟩ := reply_quiet env l { m with signals := m.signals ++ s } h0.2
    refine ⟨s ++ s', by rw [e3]; simp, ?_⟩
    unfold turns at e2 e4 ⊢
    rw [List.filter_append, e2, e4]; rfl

theorem turns_append (a b : List NSignal) : turns (a ++ b) = turns a ++ turns b := List.filter_append ..

theorem replyTo_append (env : CookieEnv) (a b : List CEv) : replyTo env (a ++ b) = b.foldl (NMeta.step env) (replyTo env a) := List.foldl_append ..

theorem tells_of_eq {env : CookieEnv} {st : Nat} {hs : Headers} {m m' : NMeta} (h : Tells env st hs m) (e1 : m'.status = m.status) (e2 : m'.rawHeaders = m.rawHeaders)
    (e3 : m'.redirection = m.redirection) (e4 : m'.jar = m.jar) : Tells env st hs m' :=
  ⟨by rw [e1]; exact h.status, by rw [e2]; exact h.headers, by rw [e3]; exact h.redirection, by rw [e4]; exact h.jar⟩

/-- A reply whose client has emitted `headersCompleted()`. -/
theorem reply_headers (env : CookieEnv) {l : List CEv} {st : Nat} {hs : Headers} (h : signals l = [.headersCompleted st hs]) (hp : ∀ x ∈ hs, NameOk x) :
    let m := replyTo env l
    Tells env st hs m ∧ m.connected = true ∧ m.isFinished = false ∧ m.errorCode = .noError ∧ turns m.signals = [.metaDataChanged] := by
  obtain ⟨a, b, rfl, h1, -, h2⟩ := List.filter_eq_cons_iff.1 h
  have ha : signals a = [] := List.filter_eq_nil_iff.2 h1
  obtain ⟨s, e1, e2⟩ := reply_quiet env a {} ha
  rw [show a ++ .headersCompleted st hs :: b = (a ++ [.headersCompleted st hs]) ++ b by simp, replyTo_append, replyTo_append]
  have e1 : replyTo env a = { signals := s } := by simpa [replyTo] using e1
  rw [e1]
  have key := C69_headers env st hs hp
  have hsame : ∀ s, (NMeta.step env { signals := s } (.headersCompleted st hs)) = { (replyTo env [.headersCompleted st hs]) with signals := s ++ [.metaDataChanged] } ∧
      (replyTo env [.headersCompleted st hs]).connected = true ∧ (replyTo env [.headersCompleted st hs]).isFinished = false ∧ (replyTo env [.headersCompleted st hs]).errorCode = .noError := by
    intro s
    have e : replyTo env [.headersCompleted st hs] = NMeta.headersCompleted env st hs {} := rfl
    have e' : NMeta.step env { signals := s } (.headersCompleted st hs) = NMeta.headersCompleted env st hs { signals := s } := rfl
    rw [e, e']
    obtain ⟨raw, k1, k2⟩ := header_loop env { status := some st } rfl rfl hs hp
    obtain ⟨raw', k1', k2'⟩ := header_loop env { status := some st, signals := s } rfl rfl hs hp
    have : raw' = raw := by
      have hind : ∀ (hs : Headers) (m m' : NMeta) (l : List Bytes), m.rawHeaders = m'.rawHeaders → (hs.foldl (NMeta.header env) (m, l)).1.rawHeaders = (hs.foldl (NMeta.header env) (m', l)).1.rawHeaders := by
        intro hs
        induction hs with
        | nil => intro m m' l h; exact h
        | cons x hs ih =>
          intro m m' l h
          simp only [List.foldl_cons, NMeta.header]
          split
          · exact ih _ _ _ (by dsimp only; rw [h])
          · split
            · exact ih _ _ _ (by dsimp only; rw [h])
            · exact ih _ _ _ (by dsimp only; rw [h])
      have := hind hs { status := some st } { status := some st, signals := s } [] rfl
      rw [k2, k2'] at this
      exact this.symm
    subst this
    unfold NMeta.headersCompleted
    dsimp only
    rw [k2, k2']
    dsimp only
    split <;> exact ⟨rfl, rfl, rfl, rfl⟩
  obtain ⟨f1, f2, f3, f4⟩ := hsame s
  simp only [List.foldl_cons, List.foldl_nil]
  rw [f1]
  obtain ⟨s', e3, e4⟩ := reply_quiet env b { (replyTo env [.headersCompleted st hs]) with signals := s ++ [.metaDataChanged] } h2
  rw [e3]
  refine ⟨tells_of_eq key rfl rfl rfl rfl, f2, f3, f4, ?_⟩
  show turns (s ++ [.metaDataChanged] ++ s') = _
  rw [turns_append, turns_append, e2, e4]
  rfl

/-- The client is finished. -/
theorem reply_finished (env : CookieEnv) {l : List CEv} (hl : ∀ e st hs ct, .finished e st hs ct ∉ l) (e : CError) (st : Nat) (hs : Headers) (ct : Bytes) (l' : List CEv) :
    replyTo env (l ++ .finished e st hs ct :: l') = (replyTo env l).clientFinished e ∧ (replyTo env l).connected = true ∧ (replyTo env l).isFinished = false ∧
      (∀ x, .error x ∉ (replyTo env l).signals) ∧ .finished ∉ (replyTo env l).signals := by
  have hc : (replyTo env l).connected = true ∧ (replyTo env l).isFinished = false ∧ (∀ x, .error x ∉ (replyTo env l).signals) ∧ .finished ∉ (replyTo env l).signals := by
    induction l using list_snoc_ind with
    | h0 => exact ⟨rfl, rfl, by simp [replyTo], by simp [replyTo]⟩
    | h1 l x ih =>
      obtain ⟨i1, i2, i3, i4⟩ := ih (fun e st hs ct hm => hl e st hs ct (by simp [hm]))
      rw [replyTo_append]
      simp only [List.foldl_cons, List.foldl_nil]
      generalize replyTo env l = m at i1 i2 i3 i4
      cases x with
      | finished e0 st0 hs0 ct0 => exact absurd (by simp) (hl e0 st0 hs0 ct0)
      | headersCompleted st hs =>
        have hloop : ∀ (hs : Headers) (x : NMeta × List Bytes), (hs.foldl (NMeta.header env) x).1.connected = x.1.connected ∧ (hs.foldl (NMeta.header env) x).1.isFinished = x.1.isFinished ∧
            (hs.foldl (NMeta.header env) x).1.signals = x.1.signals := by
          intro hs
          induction hs with
          | nil => intro x; exact ⟨rfl, rfl, rfl⟩
          | cons h hs ih =>
            intro x
            rw [List.foldl_cons]
            obtain ⟨j1, j2, j3⟩ := ih (NMeta.header env x h)
            rw [j1, j2, j3]
            unfold NMeta.header
            dsimp only
            split
            · exact ⟨rfl, rfl, rfl⟩
            · split <;> exact ⟨rfl, rfl, rfl⟩
        obtain ⟨j1, j2, j3⟩ := hloop hs ({ m with status := some st }, [])
        simp only [NMeta.step, i1, if_true]
        unfold NMeta.headersCompleted
        dsimp only at j1 j2 j3 ⊢
        generalize List.foldl (NMeta.header env) ({ m with status := some st }, []) hs = y at j1 j2 j3
        split
        · refine ⟨j1.trans i1, j2.trans i2, fun x hx => ?_, fun hx => ?_⟩
          · try dsimp only at hx
            rw [j3] at hx
            exact i3 x (by simpa using hx)
          · try dsimp only at hx
            rw [j3] at hx
            exact i4 (by simpa using hx)
        · refine ⟨j1.trans i1, j2.trans i2, fun x hx => ?_, fun hx => ?_⟩
          · try dsimp only at hx
            rw [j3] at hx
            exact i3 x (by simpa using hx)
          · try dsimp only at hx
            rw [j3] at hx
            exact i4 (by simpa using hx)
      | contentReadyRead ct =>
        simp only [NMeta.step, i1, if_true]
        exact ⟨trivial, i2, by simpa using i3, by simpa using i4⟩
      | _ => exact ⟨i1, i2, i3, i4⟩
  refine ⟨?_, hc⟩
  rw [replyTo_append, List.foldl_cons]
  have e1 : NMeta.step env (replyTo env l) (.finished e st hs ct) = (replyTo env l).clientFinished e := by simp [NMeta.step, hc.1]
  rw [e1]
  have e2 : ((replyTo env l).clientFinished e).connected = false := by
    unfold NMeta.clientFinished
    dsimp only
    split <;> rfl
  generalize (replyTo env l).clientFinished e = m at e2
  clear e1 hc hl
  induction l' generalizing m with
  | nil => rfl
  | cons x l' ih =>
    rw [List.foldl_cons]
    have : NMeta.step env m x = m := by cases x <;> simp [NMeta.step, e2]
    rw [this]
    exact ih m e2

/-- **C69**: whatever the client does, the reply is finished exactly when its client has finished; then the last two signals (the last one, if there was no error) are `error()`, for what the
client says, and `finished()`; there are no others of these two before, and nothing after. -/
theorem C69_outcome (env : CookieEnv) (log : List CEv) :
    ((replyTo env log).isFinished = true ↔ ∃ e st hs ct, .finished e st hs ct ∈ log) ∧
    ∀ l e st hs ct l', log = l ++ .finished e st hs ct :: l' → (∀ e st hs ct, .finished e st hs ct ∉ l) →
      (replyTo env log).signals = (replyTo env l).signals ++ (if e = .noError then [] else [.error (errorFor e)]) ++ [.finished] ∧
      (∀ x, .error x ∉ (replyTo env l).signals) ∧ .finished ∉ (replyTo env l).signals := by
  constructor
  · constructor
    · intro h
      by_cases hn : ∃ e st hs ct, .finished e st hs ct ∈ log
      · exact hn
      · have := (reply_finished env (l := log) (fun e st hs ct hm => hn ⟨e, st, hs, ct, hm⟩) .noError 0 [] [] []).2.2.1
        rw [this] at h; cases h
    · intro h
      have hex : ∃ l e st hs ct l', log = l ++ .finished e st hs ct :: l' ∧ ∀ e st hs ct, .finished e st hs ct ∉ l := by
        clear env
        induction log with
        | nil => obtain ⟨_, _, _, _, h⟩ := h; cases h
        | cons x log ih =>
          by_cases hx : ∃ e st hs ct, x = .finished e st hs ct
          · obtain ⟨e, st, hs, ct, rfl⟩ := hx
            exact ⟨[], e, st, hs, ct, log, rfl, by simp⟩
          · obtain ⟨e, st, hs, ct, h⟩ := h
            rcases List.mem_cons.1 h with h | h
            · exact absurd ⟨e, st, hs, ct, h.symm⟩ hx
            · obtain ⟨l, e', st', hs', ct', l', h1, h2⟩ := ih ⟨e, st, hs, ct, h⟩
              refine ⟨x :: l, e', st', hs', ct', l', by rw [h1]; rfl, fun e st hs ct hm => ?_⟩
              rcases List.mem_cons.1 hm with hm | hm
              · exact hx ⟨e, st, hs, ct, hm.symm⟩
              · exact h2 e st hs ct hm
      obtain ⟨l, e, st, hs, ct, l', rfl, hl⟩ := hex
      rw [(reply_finished env hl e st hs ct l').1]
      unfold NMeta.clientFinished
      dsimp only
  · rintro l e st hs ct l' rfl hl
    obtain ⟨h1, -, -, h2, h3⟩ := reply_finished env hl e st hs ct l'
    refine ⟨?_, h2, h3⟩
    rw [h1]
    unfold NMeta.clientFinished
    dsimp only
    by_cases he : e = .noError
    · simp [he]
    · rw [if_pos he, if_neg he]
      cases e <;> first | exact absurd rfl he | rfl

theorem answers_headers {r : ClientRequest} {m : Response} (h : Answers r m) : ∀ x ∈ m.head.shown, NameOk x := by
  have hw : m.head.Wf := by
    by_cases hd : IsHead r
    · exact (h.2 hd).1
    · exact (h.1 hd).head
  intro x hx
  obtain ⟨l, hl, rfl⟩ := List.mem_map.1 hx
  obtain ⟨⟨h1, h2⟩, -, -⟩ := hw.headers l hl
  exact ⟨h1, fun b hb => tokenChar_ascii b (h2 b hb)⟩

/-- **C69** with C56: a reply made before its client was asked to make its request (`before`; nothing of the response has come yet), and the response of the server arrives, in any pieces. Then the reply tells status, headers,
redirection and cookies of the response, and has told them whenever there is content to be read; besides `readyRead()` it emits `metaDataChanged()` and then `finished()`; there is no error. -/
theorem C69_response (cenv : CookieEnv) (env : ClientEnv) (fuel : Nat) (c : Client) (hs : WellServed env fuel c) (hw : Awaiting c) (before mid : List CEv) (hb : c.log = before ++ mid)
    (hmid : ∀ e ∈ mid, (∀ st hs, e ≠ .headersCompleted st hs) ∧ (∀ ct, e ≠ .contentReadyRead ct) ∧ ∀ e' st hs ct, e ≠ .finished e' st hs ct)
    (interims : List Response) (m : Response) (segs : List Bytes) (inputs : List CInput) (ha : Replied c.request interims m segs inputs) :
    ∃ new, (c.run env fuel inputs).log = before ++ new ∧
      (let x := replyTo cenv new
       Tells cenv (num m.head.status) m.head.shown x ∧ x.isFinished = true ∧ x.errorCode = .noError ∧ turns x.signals = [.metaDataChanged, .finished]) ∧
      ∀ l₁ ct l₂, new = l₁ ++ .contentReadyRead ct :: l₂ → (replyTo cenv l₁).isFinished = false → ct ≠ [] → Tells cenv (num m.head.status) m.head.shown (replyTo cenv l₁) := by
  have hp := answers_headers ha.answers
  obtain ⟨l₁, ct, l₂, all, h1, h2, h3, h4, h5⟩ := (answer_reports (served_fresh hs).1 (served_fresh hs).2 hw ha).1
  have hq : ∀ l, replyTo cenv (mid ++ l) = replyTo cenv l := by
    intro l
    rw [replyTo_append]
    have hm0 : ∀ (mid : List CEv) (y : NMeta), (∀ e ∈ mid, (∀ st hs, e ≠ .headersCompleted st hs) ∧ (∀ ct, e ≠ .contentReadyRead ct) ∧ ∀ e' st hs ct, e ≠ .finished e' st hs ct) → mid.foldl (NMeta.step cenv) y = y := by
      intro mid
      induction mid with
      | nil => intro y _; rfl
      | cons e mid ih =>
        intro y h
        rw [List.foldl_cons]
        obtain ⟨a1, a2, a3⟩ := h e (by simp)
        have : NMeta.step cenv y e = y := by
          cases e with
          | headersCompleted => exact absurd rfl (a1 _ _)
          | contentReadyRead => exact absurd rfl (a2 _)
          | finished => exact absurd rfl (a3 _ _ _ _)
          | _ => rfl
        rw [this]
        exact ih y fun e he => h e (by simp [he])
    rw [show replyTo cenv mid = {} from hm0 mid {} hmid]
    rfl
  have hnf : ∀ e st hs ct, .finished e st hs ct ∉ l₁ := by
    intro e st hs ct hm
    have := signals_mem hm
    rw [h2] at this
    simp at this
  refine ⟨mid ++ (l₁ ++ .finished .noError (num m.head.status) m.head.shown ct :: l₂), by rw [h1, hb]; simp, ?_, ?_⟩
  · dsimp only
    rw [hq, (reply_finished cenv hnf _ _ _ _ _).1]
    obtain ⟨k1, k2, k3, k4, k5⟩ := reply_headers cenv h2 hp
    have e : (replyTo cenv l₁).clientFinished .noError = { (replyTo cenv l₁) with connected := false, isFinished := true, signals := (replyTo cenv l₁).signals ++ [.finished] } := rfl
    rw [e]
    refine ⟨tells_of_eq k1 rfl rfl rfl rfl, rfl, k4, ?_⟩
    show turns ((replyTo cenv l₁).signals ++ [.finished]) = _
    rw [turns_append, k5]
    rfl
  · intro a ct' b e hfin hne
    -- the event is after `mid`
    rcases List.append_eq_append_iff.1 e with ⟨a', e1, e2⟩ | ⟨a', e1, e2⟩
    · rw [e1, hq] at hfin ⊢
      rcases List.append_eq_append_iff.1 e2 with ⟨d, e3, e4⟩ | ⟨d, e3, e4⟩
      · -- after `finished()`
        cases d with
        | nil => simp at e4
        | cons y d =>
          simp only [List.cons_append, List.cons.injEq] at e4
          rw [e3, ← e4.1, (reply_finished cenv hnf _ _ _ _ _).1] at hfin
          cases hfin
      · cases d with
        | nil => simp at e4
        | cons y d =>
          simp only [List.cons_append, List.cons.injEq] at e4
          rw [← e4.1] at e3
          obtain ⟨st, hs', hmem⟩ := h4.2.2 a' ct' d e3 (by simp [hne])
          have hsig : signals a' = [.headersCompleted (num m.head.status) m.head.shown] := by
            have hpre : signals a' <+: [.headersCompleted (num m.head.status) m.head.shown] := by
              rw [← h2, e3, signals_append]; exact List.prefix_append _ _
            have hin : CEv.headersCompleted st hs' ∈ signals a' := List.mem_filter.2 ⟨hmem, rfl⟩
            cases hsa : signals a' with
            | nil => rw [hsa] at hin; cases hin
            | cons z zs =>
              rw [hsa] at hpre
              obtain ⟨w, hw'⟩ := hpre
              simp only [List.cons_append, List.cons.injEq] at hw'
              obtain ⟨rfl, hw'⟩ := hw'
              rw [(List.append_eq_nil_iff.1 hw').1]
          exact (reply_headers cenv hsig hp).1
    · cases a' with
      | nil =>
        rw [List.nil_append] at e2
        exfalso
        cases l₁ with
        | nil => simp at e2
        | cons y l₁ =>
          rw [List.append_nil] at e1
          subst e1
          simp only [List.cons_append, List.cons.injEq] at e2
          obtain ⟨st, hs', hmem⟩ := h4.2.2 [] ct' l₁ (by rw [e2.1]; rfl) (by simp [hne])
          cases hmem
      | cons y a' =>
        simp only [List.cons_append, List.cons.injEq] at e2
        exact absurd e2.1.symm ((hmid y (by rw [e1]; simp)).2.1 ct')

/-- The hypotheses of `C69_response`: the reply is made before the request; the response comes in pieces, after a `100 Continue`. -/
example : demoTaking.log = [] ++ demoTaking.log ∧ (∀ e ∈ demoTaking.log, (∀ st hs, e ≠ .headersCompleted st hs) ∧ (∀ ct, e ≠ .contentReadyRead ct) ∧ ∀ e' st hs ct, e ≠ .finished e' st hs ct) ∧
    Replied demoTaking.request [demoContinue] demoSized demoPieces demoPiecesRun := by
  refine ⟨rfl, ?_, ?_⟩
  · have : demoTaking.log = [.accepted (demoReq b!"GET"), .connectToHost b!"h" 80, .write (b!"h", 80) demoWire] := by decide +kernel
    rw [this]
    intro e he
    simp only [List.mem_cons, List.not_mem_nil, or_false] at he
    rcases he with rfl | rfl | rfl <;> simp
  · exact ⟨by simpa using demoContinue_interim, answers_get (by unfold IsHead; decide +kernel) demoSized_wf, by decide +kernel, demoPieces_arrive, by decide +kernel, fun b m1 m2 a e => by
      have := congrArg List.length e
      simp at this; omega⟩

/-- A run of a client, for a reply made before anything else. -/
def demoTold (answer : Bytes) : NMeta :=
  replyTo ⟨fun v => [v], fun l => joined l⟩ ((Client.new [] [] [] []).run demoEnv 2 [.call (.request (demoReq b!"GET")), .connected, .arrive answer, .readyRead]).log

/-- Headers and cookies of a response. -/
example : demoTold b!"HTTP/1.1 200 OK\r\nSet-Cookie: a=1\r\nset-cookie: b=2\r\nX: y\r\nContent-Length: 2\r\n\r\nhi" =
    { status := some 200, rawHeaders := [⟨b!"X", b!"y"⟩, ⟨b!"Content-Length", b!"2"⟩, ⟨b!"Set-Cookie", b!"a=1; b=2"⟩], jar := [b!"a=1", b!"b=2"], isFinished := true, connected := false,
      signals := [.metaDataChanged, .readyRead, .finished] } := by decide +kernel

/-- C69 is false of the code: `error()` of a reply says that there was none, whatever has happened. The application aborts its request; the signal tells the error, the accessor does not. -/
theorem C69_error_violation :
    let m := replyTo ⟨fun v => [v], fun l => joined l⟩ ((Client.new [] [] [] []).run demoEnv 2 [.call (.request (demoReq b!"GET")), .connected, .call .abort]).log
    m.isFinished = true ∧ m.signals = [.error .operationCanceled, .finished] ∧ m.errorCode = .noError := by decide +kernel

/-- C69 is false of the code: a response that does not redirect is said to redirect if it has a `Location`. -/
theorem C69_redirection_violation :
    let m := demoTold b!"HTTP/1.1 201 Created\r\nLocation: /new\r\nContent-Length: 0\r\n\r\n"
    m.isFinished = true ∧ m.status = some 201 ∧ m.redirection = some b!"/new" := by decide +kernel

/-- C69 is false of the code: headers with empty values are not shown, and of several headers of the same name only the last one. -/
theorem C69_headers_lost :
    let m := demoTold b!"HTTP/1.1 200 OK\r\nVia: a\r\nX-Empty:\r\nVia: b\r\nContent-Length: 0\r\n\r\n"
    m.isFinished = true ∧ m.rawHeaders = [⟨b!"Via", b!"b"⟩, ⟨b!"Content-Length", b!"0"⟩] := by decide +kernel

end Pillow.Props

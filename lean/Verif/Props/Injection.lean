import Verif.Spec.Injection
import Verif.Lemmas.ParserRel
import Verif.Props.Writer
import Verif.Props.Agree
import Verif.Props.Framing
import Verif.Props.Download
/-!
# C91: what is put into a message stays in it
-/
namespace Pillow.Props
open Pillow Pillow.Spec

/-! ### requests -/

/-- How often an empty line ends. -/
def blanks : Bytes → Nat
  | [] => 0
  | b :: t => (if (b :: t).take 4 = b!"\r\n\r\n" then 1 else 0) + blanks t

theorem blanks_append_ge : ∀ a b : Bytes, blanks a + blanks b ≤ blanks (a ++ b)
  | [], b => by simp [blanks]
  | x :: t, b => by
    have ih := blanks_append_ge t b
    have hx : blanks (x :: t) = (if (x :: t).take 4 = b!"\r\n\r\n" then 1 else 0) + blanks t := rfl
    have hy : blanks (x :: t ++ b) = (if (x :: t ++ b).take 4 = b!"\r\n\r\n" then 1 else 0) + blanks (t ++ b) := rfl
    rw [hx, hy]
    by_cases h : (x :: t).take 4 = b!"\r\n\r\n"
    · have hl : 4 ≤ (x :: t).length := by
        have := congrArg List.length h
        simp only [List.length_take] at this
        simp at this ⊢; omega
      have : (x :: t ++ b).take 4 = b!"\r\n\r\n" := by rw [List.take_append_of_le_length hl, h]
      rw [if_pos h, if_pos this]; omega
    · rw [if_neg h]; omega

theorem blanks_skip : ∀ (l t : Bytes), 13 ∉ l → blanks (l ++ t) = blanks t
  | [], t, _ => rfl
  | x :: l, t, h => by
    have hx : x ≠ 13 := fun e => h (by simp [e])
    have ih := blanks_skip l t fun e => h (by simp [e])
    show (if (x :: (l ++ t)).take 4 = b!"\r\n\r\n" then 1 else 0) + blanks (l ++ t) = _
    rw [ih, if_neg (by simp [hx])]; omega

/-- Does not begin with a carriage return. -/
def Starts (t : Bytes) : Prop := t.head? ≠ some 13

theorem blanks_line (t : Bytes) (h : Starts t) : blanks (b!"\r\n" ++ t) = blanks t := by
  cases t with
  | nil => rfl
  | cons x t =>
    have hx : x ≠ 13 := fun e => h (by simp [e])
    show (if (13 :: 10 :: x :: t).take 4 = b!"\r\n\r\n" then 1 else 0) + ((if (10 :: x :: t).take 4 = b!"\r\n\r\n" then 1 else 0) + blanks (x :: t)) = _
    rw [if_neg (by simp [hx]), if_neg (by simp)]; omega

theorem blanks_end (t : Bytes) (h : Starts t) : blanks (b!"\r\n\r\n" ++ t) = 1 + blanks t := by
  have e : blanks (b!"\r\n\r\n" ++ t) = 1 + ((if (10 :: 13 :: 10 :: t).take 4 = b!"\r\n\r\n" then 1 else 0) + blanks (b!"\r\n" ++ t)) := rfl
  rw [e, if_neg (by simp), blanks_line t h]; omega

theorem starts_append {a : Bytes} (t : Bytes) (ha : a ≠ []) (h : 13 ∉ a) : Starts (a ++ t) := by
  cases a with
  | nil => exact absurd rfl ha
  | cons x a => exact fun e => h (by simp at e; simp [e])

/-- `\r\n`, header lines, and the end. -/
theorem blanks_lines : ∀ (hs : Headers) (t : Bytes), (∀ h ∈ hs, 13 ∉ h.name ∧ 13 ∉ h.value) → blanks (b!"\r\n" ++ ((hs.map lineOf).flatten ++ t)) = blanks (b!"\r\n" ++ t)
  | [], t, _ => rfl
  | h :: hs, t, hh => by
    obtain ⟨h1, h2⟩ := hh h (by simp)
    have ih := blanks_lines hs t fun x hx => hh x (by simp [hx])
    have e : ((h :: hs).map lineOf).flatten ++ t = (h.name ++ b!": " ++ h.value) ++ (b!"\r\n" ++ ((hs.map lineOf).flatten ++ t)) := by simp [lineOf]
    have hno : 13 ∉ h.name ++ b!": " ++ h.value := by simp [h1, h2]
    rw [e, blanks_line _ (starts_append _ (by simp) hno), blanks_skip _ _ hno, ih]

theorem blanks_frame {r : OutRequest} {w : Bytes} (hf : Frame r w) (hn : NoBreaks r) (t : Bytes) (ht : Starts t) : blanks (w ++ t) = 1 + blanks t := by
  obtain ⟨len, h1, h2, e⟩ := hf
  have hl : 13 ∉ len := by
    rw [decimal_unique len _ h1 h2]
    intro hm
    exact (mem_digits hm).1.1 rfl
  have hd : Starts (r.data ++ t) := by
    cases hr : r.data with
    | nil => exact ht
    | cons x d => exact fun e => hn.data (by rw [hr]; simp at e; simp [e])
  have hfirst : 13 ∉ r.method ++ b!" " ++ r.path ++ b!" HTTP/1.1" := by simp [hn.method, hn.path]
  have key : w ++ t = (r.method ++ b!" " ++ r.path ++ b!" HTTP/1.1") ++ (b!"\r\n" ++ (((r.headers ++ (if r.data = [] then [] else ([⟨b!"Content-Length", len⟩] : Headers))).map lineOf).flatten ++
      (b!"\r\n" ++ (r.data ++ t)))) := by
    rw [e]
    by_cases hz : r.data = [] <;> simp [hz, lineOf]
  rw [key, blanks_skip _ _ hfirst, blanks_lines]
  · have : b!"\r\n" ++ (b!"\r\n" ++ (r.data ++ t)) = b!"\r\n\r\n" ++ (r.data ++ t) := rfl
    rw [this, blanks_end _ hd, blanks_skip _ _ hn.data]
  · intro h hh
    rw [List.mem_append] at hh
    rcases hh with hh | hh
    · exact hn.headers h hh
    · split at hh
      · cases hh
      · simp only [List.mem_singleton] at hh
        subst hh
        exact ⟨by simp, hl⟩

theorem blanks_frames {rs : List OutRequest} {ws : Bytes} (h : Frames rs ws) (hn : ∀ r ∈ rs, NoBreaks r) : Starts ws ∧ blanks ws = rs.length := by
  induction h with
  | nil => exact ⟨by simp [Starts], rfl⟩
  | cons r rs w ws hf _ ih =>
    obtain ⟨i1, i2⟩ := ih fun r hr => hn r (by simp [hr])
    have h1 := hn r (by simp)
    refine ⟨?_, by rw [blanks_frame hf h1 ws i1, i2]; simp; omega⟩
    obtain ⟨len, -, -, e⟩ := hf
    rw [e]
    have := starts_append (a := r.method ++ b!" ") (r.path ++ b!" HTTP/1.1\r\n" ++ (r.headers.map lineOf).flatten ++ (if r.data = [] then [] else b!"Content-Length: " ++ len ++ b!"\r\n") ++ b!"\r\n" ++ r.data ++ ws)
      (by simp) (by simp [h1.method])
    simpa using this

theorem render_blank (h : ReqHead) : 1 ≤ blanks h.render := by
  have lines : ∀ ls : List HeaderLine, ∃ a, b!"\r\n" ++ (ls.map HeaderLine.render).flatten = a ++ b!"\r\n" := by
    intro ls
    induction ls with
    | nil => exact ⟨[], rfl⟩
    | cons l ls ih =>
      obtain ⟨a, ha⟩ := ih
      refine ⟨b!"\r\n" ++ l.name ++ b!":" ++ List.replicate l.spaces 32 ++ l.value ++ a, ?_⟩
      rw [List.append_assoc _ a, ← ha]
      simp [HeaderLine.render]
  obtain ⟨a, ha⟩ := lines h.headers
  have e : ∃ p, h.render = p ++ b!"\r\n\r\n" := by
    unfold ReqHead.render
    refine ⟨h.method ++ b!" " ++ h.target.uri ++ fragText h.fragment ++ b!" " ++ h.version ++ a, ?_⟩
    have : b!"\r\n\r\n" = b!"\r\n" ++ b!"\r\n" := rfl
    rw [this, ← List.append_assoc, List.append_assoc _ a, ← ha]
    simp
  obtain ⟨p, hp⟩ := e
  rw [hp]
  have := blanks_append_ge p b!"\r\n\r\n"
  have h1 : blanks b!"\r\n\r\n" = 1 := rfl
  omega

theorem requests_blanks {s rest : Bytes} {reqs : List (ReqHead × Bytes)} (h : Requests s reqs rest) : reqs.length ≤ blanks s := by
  induction h with
  | nil => simp
  | cons h content s reqs rest _ _ ih =>
    have h1 := render_blank h
    have h2 := blanks_append_ge (h.render ++ content) s
    have h3 := blanks_append_ge h.render content
    simp only [List.length_cons]; omega

/-- **C91**, requests. Whatever requests a program writes, with any paths, headers and content without carriage returns, well-formed or not: from these bytes a server never hands out
more requests than were written. -/
theorem C91_requests_partial (cs : List WCall) (w : Writer) (out : List Bytes) (hr : Writer.run {} cs = some (w, out)) (hn : ∀ r ∈ sent false cs, NoBreaks r)
    (s : Conf) (hs : Reach Proper s) (he : received (epoch s.c.log) <+: out.flatten) : (readys (epoch s.c.log)).length ≤ (sent false cs).length := by
  obtain ⟨w', out', h1, h2⟩ := C49_framing cs
  rw [hr] at h1; cases h1
  obtain ⟨reqs, rest, h3, h4, -⟩ := C13_exact_requests s hs
  obtain ⟨t, ht⟩ := he
  have a1 := requests_blanks h3
  have a2 := blanks_append_ge (received (epoch s.c.log)) t
  rw [ht, (blanks_frames h2 hn).2] at a2
  rw [h4]
  simp only [shownAll, List.length_map]
  omega

/-- C91 does not hold for values with carriage returns: whatever request `x` with content `c` an attacker wants a server to see, a client that writes *one* request without content, and
puts a text chosen by the attacker into its last header, makes the server hand out that request too. -/
theorem C91_requests_violation (r : OutRequest) (hw : Writable r) (hd : r.data = []) (hs : Headers) (l : Header) (hh : r.headers = hs ++ [l]) (x : ReqHead) (c : Bytes) (ha : Acceptable x c.length) :
    ∃ text v w out, Received r v ∧ Writer.run {} [.setDevice true, .write { r with headers := hs ++ [Header.longer l text] }] = some (w, out) ∧
      ∀ s, Reach Proper s → received (epoch s.c.log) = out.flatten → readys (epoch s.c.log) <+: [v, x.shown c] ∧ ¬ Waiting s ∧
        ∀ code, Ev.errorReply code ∈ epoch s.c.log → code = 400 ∧ readys (epoch s.c.log) = [v, x.shown c] := by
  obtain ⟨p, q, hp⟩ := hw.path
  have hacc := frame_acceptable r hw p q hp
  have hren := frame_render r p q (digits 10 r.data.length) hp
  obtain ⟨w, out, h1, h2⟩ := C49_framing [.setDevice true, .write { r with headers := hs ++ [Header.longer l (b!"\r\n\r\n" ++ x.render ++ c)] }]
  refine ⟨b!"\r\n\r\n" ++ x.render ++ c, _, w, out, frame_received r p q hp, h1, fun s hrs hrec => ?_⟩
  have e : out.flatten = (frameHead r p q (digits 10 r.data.length)).render ++ [] ++ (x.render ++ c ++ (13 :: b!"\n\r\n")) := by
    generalize out.flatten = o at h2
    cases h2 with
    | cons _ _ wr ws hf hfs =>
      cases hfs
      obtain ⟨len, -, -, e⟩ := hf
      rw [e, hren]
      simp [hd, hh, Header.longer, lineOf]
  have hreqs : Requests (received (epoch s.c.log)) [(frameHead r p q (digits 10 r.data.length), []), (x, c)] (13 :: b!"\n\r\n") := by
    rw [hrec, e]
    rw [hd] at hacc ⊢
    exact .cons _ _ _ _ _ hacc (.cons _ _ _ _ _ ha (.nil _))
  have := C11_refused s hrs _ _ 400 hreqs (.inl ⟨rfl, cr_bad _⟩)
  rw [hd] at this ⊢
  exact this

/-! ### responses -/

theorem inject_hooks (r : RespParser) (bs : Bytes) : r.d.hooks <+: (r.inject bs).1.d.hooks := by
  have := (inv_execute (cb := respCb) (Iok := fun d => r.d.hooks <+: d.hooks) (Iany := fun d => r.d.hooks <+: d.hooks) (fun _ h => h) ?_ (p := r.p) (s := r.d) (List.prefix_refl _) bs).1
  · exact this
  · intro c p d he hd
    have push : d.push.hooks = d.hooks := by unfold RespData.push; split <;> rfl
    cases c with
    | messageBegin => exact ⟨hd.trans (List.prefix_append _ _), fun _ => ⟨he, hd.trans (List.prefix_append _ _)⟩⟩
    | field bs => exact ⟨by show _ <+: d.push.hooks; rw [push]; exact hd, fun _ => ⟨he, by show _ <+: d.push.hooks; rw [push]; exact hd⟩⟩
    | value bs => exact ⟨hd, fun _ => ⟨he, hd⟩⟩
    | headersComplete => exact ⟨by show _ <+: d.push.hooks ++ _; rw [push]; exact hd.trans (List.prefix_append _ _),
        fun _ => ⟨he, by show _ <+: d.push.hooks ++ _; rw [push]; exact hd.trans (List.prefix_append _ _)⟩⟩
    | body bs => exact ⟨hd, fun _ => ⟨he, hd⟩⟩
    | messageComplete =>
      refine ⟨hd.trans (List.prefix_append _ _), fun hn => ?_⟩
      exact absurd (by show (p.pause).errno = .paused; unfold HParser.pause; simp [he]) hn

theorem deliver_hooks : ∀ (bs : Bytes) (r : RespParser), r.d.hooks <+: (deliver r bs).d.hooks := by
  intro bs
  induction h : bs.length using Nat.strongRecOn generalizing bs with
  | _ k ih =>
    intro r
    unfold deliver
    split
    · split
      · exact List.prefix_refl _
      · exact inject_hooks r bs
    · rename_i hh
      simp only [not_or] at hh
      have hb : 0 < bs.length := List.length_pos_iff.2 hh.1
      exact (inject_hooks r bs).trans (ih (bs.drop (r.inject bs).2).length (by rw [List.length_drop]; omega) _ rfl _)


theorem statusText_split {status : Int} (hst : status ∈ rfcCodes) : ∃ code reason, statusText status = code ++ 32 :: reason ∧ Small code ∧ num code = status.toNat ∧ (∀ b ∈ reason, TextChar b) ∧
    code.length + reason.length ≤ 50 := by
  obtain ⟨reason, k1, k2, code, k3, k4, k5⟩ := (C43_table status).1 hst
  obtain ⟨c1, c2⟩ := status_small k4 hst
  have key : ∀ c ∈ rfcCodes, ((getStatusCodeAndMessage c).getD []).length ≤ 50 := by decide +kernel
  have hl := key status hst
  rw [k5, Option.getD_some] at hl
  simp at hl
  refine ⟨code, reason, by unfold statusText; rw [k5], c1, c2, reason_text hst k5, by omega⟩

theorem wireOf_append (a b : List Ev) : wireOf (a ++ b) = wireOf a ++ wireOf b := by simp [wireOf]

/-- **C91**, responses. What a handler writes with `writeResponse`, with any status of RFC 2616, any plain headers and any content, is for the client one response: the one written. -/
theorem C91_responses_partial (s : Conf) (hr : Reach Proper s) (he : s.inEnv = true) (hf : s.c.fault = none) (hst : s.c.st = .sendingHeaders) {maj min : Bytes} (hv : VersionOf s.c.req maj min)
    (hm : s.c.req.method ≠ b!"HEAD") (status : Int) (hs : Headers) (ct : Bytes) (hstat : status ∈ rfcCodes) (hp : ∀ x ∈ hs, PlainHeader x) (hcl : lastHeader hs b!"content-length" = none)
    (hl : (ct.length : Int) < 2147483648) :
    ∃ n s' out keep, s.run (.call (.writeResponse status hs ct) :: taus n) = some s' ∧ wireOf s'.c.log = wireOf s.c.log ++ out ∧ (out.length ≤ 80 * 1024 - 2 + ct.length →
      ∀ p, Ready p → ∀ segs : List Bytes, segs.flatten = out →
        (deliverAll p segs).d.hooks = p.d.hooks ++ reported status.toNat (sentHeaders s.c.req hs (some (digits 10 ct.length)) keep false) ct ∧ (deliverAll p segs).hasError = false) := by
  obtain ⟨n, s', h, h1, h2, h3, h4, h5⟩ := C18_writeResponse s hr he hf hst status hs ct hcl hl
  have hr' : Reach Proper s' := reach_run hr h1 (by
    intro l hl
    simp only [List.mem_cons] at hl
    rcases hl with rfl | hl
    · simp
    · have : l = .tau 0 := by simp only [taus, List.mem_replicate] at hl; exact hl.2
      rw [this]; simp)
  have hreq : (readys s.c.log).getLast? = some s.c.req := (C14_stable s hr he hf (.inl hst)).1
  generalize hb : (if ct = [] ∨ s.c.req.method = b!"HEAD" then [] else [Ev.body ct]) = b at h5
  have hnh : NoHead b := by
    rw [← hb]; split
    · intro e he; cases he
    · intro e he; simp at he; subst he; simp
  have hcb : contentOf b = ct := by
    rw [← hb]; split
    · rename_i h; rcases h with h | h
      · simp [h, contentOf]
      · exact absurd h hm
    · simp [contentOf, Ev.content]
  have hch : h.chunked = false := by
    cases hc : h.chunked with
    | false => rfl
    | true => have := (h4.chunked.1 hc).2.1; omega
  have hwb : wireOf b = ct := by
    rw [← hb]; split
    · rename_i h; rcases h with h | h
      · simp [h, wireOf]
      · exact absurd h hm
    · simp [wireOf, Ev.wire]
  have hlog : s'.c.log = s.c.log ++ .head h :: b ++ .completed :: [] := by rw [h5]; simp
  refine ⟨n, s', wireOf (.head h :: b), h.keepAlive, h1, by rw [hlog]; simp [wireOf, Ev.wire], fun hsz p hpr segs hseg => ?_⟩
  have hw : wireOf (.head h :: b) = h.bytes ++ ct := by rw [← hwb]; simp [wireOf, Ev.wire]
  have := C41_known_length s' hr' s.c.log b [] h s.c.req hlog hnh hreq hm (by omega) (by rw [h4.code]; exact hstat) hv (by rw [h4.hdrs]; exact hp) (by
    rw [hw, List.length_append] at hsz; omega) hpr hseg
  rw [h4.code, h4.hdrs, h3, hch, hcb] at this
  exact this

/-- C91 does not hold for values with line ends: whatever response `M` an attacker wants the client to see, a handler that answers with *one* `writeResponse`, and puts a text chosen by the
attacker behind the value of a header, makes the client see an empty response and then that one. -/
theorem C91_responses_violation (M : Response) (hM : M.Wf) (s : Conf) (hr : Reach Proper s) (he : s.inEnv = true) (hf : s.c.fault = none) (hst : s.c.st = .sendingHeaders)
    (hv : s.c.req.version = b!"HTTP/1.1") (status : Int) (hstat : status ∈ rfcCodes) (l : Header) (hp : PlainHeader l) (hsp : ¬ Special l) (hpc : ¬ SameCI l.name b!"proxy-connection")
    (hsz : l.name.length + l.value.length ≤ 70000) (ct : Bytes) (hl : (ct.length : Int) < 2147483648) :
    ∃ text n s' out, s.run (.call (.writeResponse status [Header.longer l text] ct) :: taus n) = some s' ∧ wireOf s'.c.log = wireOf s.c.log ++ out ∧
      ∀ p, Ready p → p.d.hooks ++ reported status.toNat [l, ⟨b!"Content-Length", b!"0"⟩] [] ++ M.report <+: (deliver p out).d.hooks := by
  have hsp' : ∀ text, ¬ Special (Header.longer l text) := fun text h => hsp h
  have hlast : ∀ (x : Header) name, ¬ SameCI x.name name → lastHeader [x] name = none := by
    intro x name h; unfold lastHeader; simp [h]
  have hsc : ∀ x : Header, ¬ Special x → (¬ SameCI x.name b!"content-length") ∧ (¬ SameCI x.name b!"content-type") ∧ (¬ SameCI x.name b!"connection") ∧ ¬ SameCI x.name b!"transfer-encoding" := by
    intro x h; unfold Special at h; simp only [not_or] at h; exact h
  generalize htx : b!"\r\nContent-Length: 0\r\n\r\n" ++ M.render = text
  obtain ⟨q1, q2, q3, q4⟩ := hsc l hsp
  obtain ⟨n, s', h, h1, h2, h3, h4, h5⟩ := C18_writeResponse s hr he hf hst status [Header.longer l text] ct (hlast _ _ (hsc _ (hsp' text)).1) hl
  generalize hb : (if ct = [] ∨ s.c.req.method = b!"HEAD" then [] else [Ev.body ct]) = b at h5
  have hlog : s'.c.log = s.c.log ++ .head h :: b ++ .completed :: [] := by rw [h5]; simp
  refine ⟨text, n, s', wireOf (.head h :: b), h1, by rw [hlog]; simp [wireOf, Ev.wire], fun p hpr => ?_⟩
  obtain ⟨code, reason, t1, t2, t3, t4, t5⟩ := statusText_split hstat
  have d0 : digits 10 0 = b!"0" := by decide +kernel
  have hother : otherLines [l] = lineOf l := by simp [otherLines, hsp]
  have hother' : otherLines [Header.longer l text] = lineOf (Header.longer l text) := by simp [otherLines, hsp' text]
  have hren := sent_render (r := s.c.req) (maj := b!"1") (min := b!"1") (code := code) (reason := reason) [l] 0 (some (digits 10 0)) true false hv (by simp [renderInt]) (by omega)
  have hty : typeHeader [l] 0 = [] := by unfold typeHeader; rw [hlast _ _ q2]; simp
  have hco : connectionHeader s.c.req true = [] := by unfold connectionHeader; simp [hv]
  have hen : encodingHeader [l] false = [] := by unfold encodingHeader; rw [hlast _ _ q4]
  have hri : renderInt 10 0 = b!"0" := by decide +kernel
  rw [hty, hco, hen, hother, hri, if_neg (by omega), hv] at hren
  have hplain : ∀ x ∈ [l], PlainHeader x := by intro x hx; simp at hx; subst hx; exact hp
  have hsmall : Small b!"1" := ⟨1, by decide +kernel, by decide⟩
  have hwf : (sentHead s.c.req b!"1" b!"1" code reason [l] (some (digits 10 0)) true false).Wf := by
    have := sent_wf (r := s.c.req) (n := some 0) (keep := true) (chunked := false) hplain hsmall hsmall t2 t4 (by intro k hk; cases hk; omega) (by
      show (sentHead s.c.req b!"1" b!"1" code reason [l] (some (digits 10 0)) true false).render.length ≤ _
      rw [hren]
      simp [lineOf]; omega)
    exact this
  have hann : (sentHead s.c.req b!"1" b!"1" code reason [l] (some (digits 10 0)) true false).announced = some 0 := by
    rw [sent_announced _ _ _ _ _ _ _ _ _ (by intro x hx; cases hx; rw [d0]; simp), d0]
    decide +kernel
  have hnc : ¬ (sentHead s.c.req b!"1" b!"1" code reason [l] (some (digits 10 0)) true false).IsChunked := by
    rw [sent_chunked hplain (by intro h; cases h)]; simp
  have hshown : (sentHead s.c.req b!"1" b!"1" code reason [l] (some (digits 10 0)) true false).headers = [toR l, toR ⟨b!"Content-Length", b!"0"⟩] := by
    unfold sentHead sentHeaders lengthPart typePart connectionPart encodingPart
    rw [hlast _ _ q2, hlast _ _ q4, d0]
    simp [hsp, hv]
  generalize hH : sentHead s.c.req b!"1" b!"1" code reason [l] (some (digits 10 0)) true false = H at hren hwf hann hnc hshown
  have hmaj : H.major = b!"1" ∧ H.minor = b!"1" ∧ H.status = code := by rw [← hH]; exact ⟨rfl, rfl, rfl⟩
  have hkeeps : H.Keeps := by
    unfold RHead.Keeps
    rw [hmaj.1, hmaj.2.1, if_pos (by decide +kernel)]
    rintro ⟨x, hx, hn, -⟩
    rw [hshown] at hx
    simp only [List.mem_cons, List.not_mem_nil, or_false] at hx
    rcases hx with rfl | rfl
    · rcases hn with hn | hn
      · exact q3 hn
      · exact hpc hn
    · rcases hn with hn | hn
      · exact absurd hn (by decide +kernel)
      · exact absurd hn (by decide +kernel)
  have hR : (⟨H, [], []⟩ : Response).Wf := ⟨hwf, .sized [] hnc hann⟩
  have hrep : (⟨H, [], []⟩ : Response).report = reported status.toNat [l, ⟨b!"Content-Length", b!"0"⟩] [] := by
    unfold Response.report reported RHead.shown
    rw [hshown, hmaj.2.2, t3]
    rfl
  obtain ⟨cl, -, hbytes⟩ := h4.bytes
  have hwire : ∃ rest, wireOf (.head h :: b) = (⟨H, [], []⟩ : Response).render ++ (M.render ++ rest) := by
    refine ⟨b!"\r\n" ++ cl ++ typeHeader [Header.longer l text] h.len ++ connectionHeader s.c.req h.keepAlive ++ encodingHeader [Header.longer l text] h.chunked ++ b!"\r\n" ++ wireOf b, ?_⟩
    have : wireOf (.head h :: b) = h.bytes ++ wireOf b := by simp [wireOf, Ev.wire]
    rw [this, hbytes, hother']
    unfold Response.render
    rw [hren]
    unfold statusLine
    rw [t1, hv]
    simp [lineOf, Header.longer, ← htx, Response.render]
  obtain ⟨rest, hwire⟩ := hwire
  have hr2 : Ready (deliver p (⟨H, [], []⟩ : Response).render) := .reply _ hpr hR hkeeps
  have a1 := deliver_append (⟨H, [], []⟩ : Response).render (M.render ++ rest) p (ready_used_safe hpr).1 (ready_used_safe hpr).2
  have a2 := deliver_append M.render rest (deliver p (⟨H, [], []⟩ : Response).render) (ready_used_safe hr2).1 (ready_used_safe hr2).2
  rw [hwire, a1.hooks, a2.hooks]
  have g := deliver_hooks rest (deliver (deliver p (⟨H, [], []⟩ : Response).render) M.render)
  rw [(C55_response hr2 hM).1, (C55_response hpr hR).1, hrep] at g
  exact g


/-! ### the hypotheses are met -/

/-- Of `C91_requests_partial`: a request that is not well-formed (a space in the path) and one with content, received by a server. -/
example : ∃ cs w out s, Writer.run {} cs = some (w, out) ∧ (∀ r ∈ sent false cs, NoBreaks r) ∧ (sent false cs).length = 2 ∧ Reach Proper s ∧ received (epoch s.c.log) = out.flatten ∧
    Ev.errorReply 400 ∈ epoch s.c.log ∧ (readys (epoch s.c.log)).length = 1 := by
  let cs : List WCall := [.setDevice true, .post b!"/upload" [⟨b!"Host", b!"example.org"⟩] b!"hello", .get b!"/a b" []]
  let wire := b!"POST /upload HTTP/1.1\r\nHost: example.org\r\nContent-Length: 5\r\n\r\nhelloGET /a b HTTP/1.1\r\n\r\n"
  have hw : ∃ p, Writer.run {} cs = some p ∧ p.2.flatten = wire := by
    have : (match Writer.run {} cs with | some p => decide (p.2.flatten = wire) | none => false) = true := by decide +kernel
    split at this
    · rename_i p hp; exact ⟨p, hp, by simpa using this⟩
    · cases this
  obtain ⟨⟨w, out⟩, h1, h2⟩ := hw
  obtain ⟨s, h3, h4⟩ := exists_of_endsIn (allowed := Proper)
    (p := fun s => received (epoch s.c.log) == wire && decide (Ev.errorReply 400 ∈ epoch s.c.log) && (readys (epoch s.c.log)).length == 1)
    (ls := [.init, .recv wire, .call .processInput] ++ taus 4 ++ [.call (.writeResponse 204 [] b!"")] ++ taus 4 ++ [.ret] ++ taus 2 ++ [.ret] ++ taus 4) (by decide +kernel)
  simp only [Bool.and_eq_true, beq_iff_eq, decide_eq_true_eq] at h4
  refine ⟨cs, w, out, s, h1, ?_, by decide +kernel, h3, h4.1.1.trans h2.symm, h4.1.2, h4.2⟩
  intro r hr
  have hr : r = ⟨b!"POST", b!"/upload", [⟨b!"Host", b!"example.org"⟩], b!"hello"⟩ ∨ r = ⟨b!"GET", b!"/a b", [], []⟩ := by
    simpa [cs, sent, WCall.request] using hr
  rcases hr with rfl | rfl
  · exact ⟨by decide +kernel, by decide +kernel, by decide +kernel, by decide +kernel⟩
  · exact ⟨by decide +kernel, by decide +kernel, by decide +kernel, by decide +kernel⟩

/-- Of `C91_requests_violation`; and the whole of it: one `get` with a header `X-Note` whose value contains line ends, two requests handed out. -/
theorem C91_requests_example : (Writable ⟨b!"GET", b!"/a", [⟨b!"X-Note", b!"hi"⟩], []⟩ ∧ Acceptable getHead ([] : Bytes).length) ∧
    ∃ w out s, Writer.run {} [.setDevice true, .get b!"/a" [⟨b!"X-Note", b!"hi\r\n\r\nGET /admin HTTP/1.1\r\n\r\n"⟩]] = some (w, out) ∧ Reach Proper s ∧ received (epoch s.c.log) = out.flatten ∧
      (readys (epoch s.c.log)).map (fun r => (r.method, r.path)) = [(b!"GET", b!"/a"), (b!"GET", b!"/admin")] := by
  refine ⟨⟨?_, head_wf _ b!"admin" rfl rfl (by decide +kernel), by decide +kernel, by decide +kernel, by decide +kernel⟩, ?_⟩
  · refine writable_intro _ b!"/a" [] ⟨⟨b!"a", rfl, ?_⟩, .inl ⟨rfl, rfl⟩⟩ ?_ ?_ ?_ (by simp) (by decide +kernel)
    · repeat (first | exact .nil | refine .plain _ _ (by unfold PathChar UriChar; decide) ?_)
    · exact ⟨by simp, by simp, by simp [MethodChar, oneOf, upperA, digitA]⟩
    · simp only [List.mem_cons, List.not_mem_nil, or_false, forall_eq]
      exact ⟨by simp, by rintro b (rfl | rfl | rfl | rfl | rfl | rfl) <;> decide, by simp, by simp⟩
    · simp only [List.mem_cons, List.not_mem_nil, or_false, forall_eq]; decide
  · let cs : List WCall := [.setDevice true, .get b!"/a" [⟨b!"X-Note", b!"hi\r\n\r\nGET /admin HTTP/1.1\r\n\r\n"⟩]]
    let wire := b!"GET /a HTTP/1.1\r\nX-Note: hi\r\n\r\nGET /admin HTTP/1.1\r\n\r\n\r\n\r\n"
    have hw : ∃ p, Writer.run {} cs = some p ∧ p.2.flatten = wire := by
      have : (match Writer.run {} cs with | some p => decide (p.2.flatten = wire) | none => false) = true := by decide +kernel
      split at this
      · rename_i p hp; exact ⟨p, hp, by simpa using this⟩
      · cases this
    obtain ⟨⟨w, out⟩, h1, h2⟩ := hw
    obtain ⟨s, h3, h4⟩ := exists_of_endsIn (allowed := Proper)
      (p := fun s => received (epoch s.c.log) == wire && (readys (epoch s.c.log)).map (fun r => (r.method, r.path)) == [(b!"GET", b!"/a"), (b!"GET", b!"/admin")])
      (ls := [.init, .recv wire, .call .processInput] ++ taus 3 ++ [.call (.writeResponse 204 [] b!"")] ++ taus 4 ++ [.ret] ++ taus 2 ++ [.ret] ++ taus 4) (by decide +kernel)
    simp only [Bool.and_eq_true, beq_iff_eq] at h4
    exact ⟨w, out, s, h1, h3, h4.1.trans h2.symm, h4.2⟩

/-- Of `C91_responses_partial` and `C91_responses_violation`: a request was handed out, and an answer was written whose header `X-Note` contains line ends; the client sees two responses. -/
theorem C91_responses_example : (∃ s, Reach Proper s ∧ s.inEnv = true ∧ s.c.fault = none ∧ s.c.st = .sendingHeaders ∧ s.c.req.version = b!"HTTP/1.1" ∧ s.c.req.method = b!"GET" ∧
      VersionOf s.c.req b!"1" b!"1") ∧
    (PlainHeader ⟨b!"X-Y", b!"z"⟩ ∧ ¬ Special ⟨b!"X-Y", b!"z"⟩ ∧ ¬ SameCI b!"X-Y" b!"proxy-connection") ∧
    ∃ s, Reach Proper s ∧ (epoch s.c.log).filter (· == .completed) = [.completed] ∧
      (deliver {} (wireOf s.c.log)).d.hooks.filter (fun h => match h with | .complete .. => true | _ => false) =
        [.complete 200 [⟨b!"X-Y", b!"z"⟩, ⟨b!"Content-Length", b!"0"⟩] [], .complete 200 [⟨b!"Content-Length", b!"4"⟩] b!"evil"] := by
  refine ⟨?_, ⟨demo_plain, by decide +kernel, by decide +kernel⟩, ?_⟩
  · obtain ⟨s, h1, h2⟩ := exists_of_endsIn (allowed := Proper) (ls := [.init, .recv b!"GET /a HTTP/1.1\r\n\r\n", .call .processInput] ++ taus 3)
      (p := fun s => s.inEnv && s.c.fault == none && s.c.st == .sendingHeaders && s.c.req.version == b!"HTTP/1.1" && s.c.req.method == b!"GET") (by decide +kernel)
    simp only [Bool.and_eq_true, beq_iff_eq] at h2
    obtain ⟨⟨⟨⟨a1, a2⟩, a3⟩, a4⟩, a5⟩ := h2
    exact ⟨s, h1, a1, a2, a3, a4, a5, by rw [a4]; rfl, ⟨1, by decide +kernel, by decide⟩, ⟨1, by decide +kernel, by decide⟩⟩
  · obtain ⟨s, h1, h2⟩ := exists_of_endsIn (allowed := Proper) (ls := [.init, .recv b!"GET /a HTTP/1.1\r\n\r\n", .call .processInput] ++ taus 3 ++
        [.call (.writeResponse 200 [⟨b!"X-Y", b!"z\r\nContent-Length: 0\r\n\r\nHTTP/1.1 200 OK\r\nContent-Length: 4\r\n\r\nevil"⟩] b!"hello")] ++ taus 7)
      (p := fun s => decide ((epoch s.c.log).filter (· == .completed) = [.completed]) && decide ((deliver {} (wireOf s.c.log)).d.hooks.filter (fun h => match h with | .complete .. => true | _ => false) =
        [.complete 200 [⟨b!"X-Y", b!"z"⟩, ⟨b!"Content-Length", b!"0"⟩] [], .complete 200 [⟨b!"Content-Length", b!"4"⟩] b!"evil"])) (by decide +kernel)
    simp only [Bool.and_eq_true, decide_eq_true_eq] at h2
    exact ⟨s, h1, h2.1, h2.2⟩

end Pillow.Props

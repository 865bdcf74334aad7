import Verif.Lemmas.LinkInv
/-!
# A client and servers of the library, connected: one step of the client
-/
namespace Pillow.Props.Pair
open Pillow Pillow.Spec Pillow.Spec.Pair Pillow.Props

/-- The bytes of an answer say how the request ended. -/
def Explained (env : ClientEnv) (x : Entry) (f : Bytes) : Prop := ∃ o, x.outcome = some o ∧ ∀ a, Full env a f → Delivered x.request a.request → IsAnswer o a

def Matched (env : ClientEnv) (F : List Bytes) (xs : List Entry) : Prop := ∀ (i : Nat) (x : Entry), xs[i]? = some x → ∃ f, F[i]? = some f ∧ Explained env x f

theorem Matched.mono {env : ClientEnv} {F F' : List Bytes} {xs : List Entry} (h : Matched env F xs) (hF : F <+: F') : Matched env F' xs := by
  intro i x hx
  obtain ⟨f, h1, h2⟩ := h i x hx
  exact ⟨f, prefix_getElem? h1 hF, h2⟩

theorem Matched.len {env : ClientEnv} {F : List Bytes} {xs : List Entry} (h : Matched env F xs) : xs.length ≤ F.length := by
  rcases Nat.lt_or_ge F.length xs.length with hl | hl
  · obtain ⟨f, h1, -⟩ := h F.length _ (List.getElem?_eq_getElem hl)
    simp at h1
  · exact hl

theorem matched_nil {env : ClientEnv} {F : List Bytes} : Matched env F [] := by intro i x h; simp at h

theorem Matched.snoc {env : ClientEnv} {F : List Bytes} {xs : List Entry} (h : Matched env F xs) {x : Entry} {f : Bytes} (h1 : F[xs.length]? = some f) (h2 : Explained env x f) : Matched env F (xs ++ [x]) := by
  intro i y hy
  rcases Nat.lt_or_ge i xs.length with hl | hl
  · rw [List.getElem?_append_left hl] at hy
    exact h i y hy
  · rw [List.getElem?_append_right hl] at hy
    have hi : i - xs.length < 1 := by
      have := (List.getElem?_eq_some_iff.1 hy).1
      simpa using this
    have : i = xs.length := by omega
    subst this
    simp at hy
    subst hy
    exact ⟨f, h1, h2⟩

theorem take_mono {F F' : List Bytes} {n : Nat} (h : F <+: F') (hn : n ≤ F.length) : F'.take n = F.take n := by
  obtain ⟨t, rfl⟩ := h
  rw [List.take_append_of_le_length hn]

theorem take_one_more {F : List Bytes} {n : Nat} {f : Bytes} (h : F[n]? = some f) : (F.take (n + 1)).flatten = (F.take n).flatten ++ f := by
  obtain ⟨h1, h2⟩ := List.getElem?_eq_some_iff.1 h
  rw [List.take_succ, h]
  simp

/-- A request that has failed. -/
def Lost (es : List Ev) (n : Nat) (x : Entry) : Prop :=
  ∃ o, x.outcome = some o ∧ o.error ≠ .noError ∧ (o.content = [] ∨ ∃ a, (answers es)[n]? = some a ∧ Delivered x.request a.request ∧ IsPart o a)

theorem Lost.mono {es : List Ev} {n : Nat} {x : Entry} (h : Lost es n x) (t : List Ev) : Lost (es ++ t) n x := by
  obtain ⟨o, h1, h2, h3⟩ := h
  refine ⟨o, h1, h2, h3.imp id ?_⟩
  rintro ⟨a, k1, k2, k3⟩
  obtain ⟨b, m1, m2, m3, m4⟩ := answers_grow es t k1
  exact ⟨b, m1, by rw [m2]; exact k2, by rw [m3]; exact k3.status, by rw [m2, m3]; exact k3.headers, k3.content.trans m4⟩

/-- All the requests have been answered, but for the last one, which may have failed. -/
def Closed (env : ClientEnv) (es : List Ev) (xs : List Entry) : Prop :=
  Matched env (cut es).full xs ∨ ∃ ys x, xs = ys ++ [x] ∧ Matched env (cut es).full ys ∧ Lost es ys.length x

/-- What the client is doing when it has been sent `arr` by a server that has done `es`. -/
inductive Mode (env : ClientEnv) (fuel : Nat) (es : List Ev) (arr : Bytes) (mark : Nat) (c : Client) : Prop where
  | idle : c.responsePending = false → Fresh c → Matched env (cut es).full (ledger c.log).entries → arr = ((cut es).full.take (ledger c.log).entries.length).flatten → Mode env fuel es arr mark c
  | opening : c.responsePending = true → c.sock.state = .connecting → Fresh c → (ledger c.log).entries = [] → (ledger c.log).last = some c.request → arr = [] → Mode env fuel es arr mark c
  | waiting (c0 : Client) (inputs : List CInput) (d : Bytes) : Top c0 → Fresh c0 → Expecting c0 → (∀ i ∈ inputs, Steady i) → c = c0.run env fuel inputs → (∃ l, c.log = c0.log ++ l ∧ Minors l) →
      c.responsePending = true → c.sock.state = .connected → (ledger c0.log).taken = [] → (ledger c0.log).current = some ⟨c0.request, d, none⟩ → Matched env (cut es).full (ledger c0.log).done →
      arr = ((cut es).full.take (ledger c0.log).done.length).flatten ++ incoming inputs → (lastHead c0.log = none ∧ mark = ((cut es).full.take (ledger c0.log).done.length).flatten.length) → Mode env fuel es arr mark c
  | gone (ys : List Entry) (x : Entry) : Loose c → Fresh c → (ledger c.log).entries = ys ++ [x] → Matched env (cut es).full ys → Lost es ys.length x → Mode env fuel es arr mark c

theorem Mode.mono {env : ClientEnv} {fuel : Nat} {es : List Ev} {arr : Bytes} {mark : Nat} {c : Client} (h : Mode env fuel es arr mark c) (t : List Ev) : Mode env fuel (es ++ t) arr mark c := by
  have hF := cut_full es t
  cases h with
  | idle h1 h2 h3 h4 => exact .idle h1 h2 (h3.mono hF) (by rw [take_mono hF h3.len]; exact h4)
  | opening h1 h2 h3 h4 h5 h6 => exact .opening h1 h2 h3 h4 h5 h6
  | waiting c0 inputs d h1 h2 h3 h4 h5 h6 h7 h8 h9 h10 h11 h12 h13 =>
    exact .waiting c0 inputs d h1 h2 h3 h4 h5 h6 h7 h8 h9 h10 (h11.mono hF) (by rw [take_mono hF h11.len]; exact h12) (by rw [take_mono hF h11.len]; exact h13)
  | gone ys x h1 h2 h3 h4 h5 => exact .gone ys x h1 h2 h3 (h4.mono hF) (h5.mono t)

theorem written_eq (c : Client) : written c = (ledger c.log).entries.length := by
  unfold written
  rw [← (ledger_talk c.log).2]
  simp [pairs]

/-- The mark after a step. -/
def marked (mark : Nat) (arr : Bytes) (c c' : Client) : Nat := if written c' = written c then mark else arr.length

/-- What a step of the client does to the ledger. -/
inductive Advance (env : ClientEnv) (fuel : Nat) (es : List Ev) (arr : Bytes) (mark : Nat) (c c' : Client) : Prop where
  | same : connects c'.log = connects c.log → (ledger c'.log).past = (ledger c.log).past → pairs (ledger c.log).entries <+: pairs (ledger c'.log).entries → Mode env fuel es arr (marked mark arr c c') c' →
      Advance env fuel es arr mark c c'
  | anew (xs : List Entry) : connects c'.log ≠ connects c.log → (ledger c'.log).past = (ledger c.log).past ++ [xs] → pairs xs = pairs (ledger c.log).entries → Closed env es xs → Mode env fuel [] [] 0 c' →
      Advance env fuel es arr mark c c'

theorem Advance.of {env : ClientEnv} {fuel : Nat} {es : List Ev} {arr : Bytes} {mark : Nat} {c c1 c' : Client} (h : Advance env fuel es arr mark c1 c') (h1 : connects c1.log = connects c.log)
    (h2 : (ledger c1.log).past = (ledger c.log).past) (h3 : pairs (ledger c1.log).entries = pairs (ledger c.log).entries) : Advance env fuel es arr mark c c' := by
  have hw : written c1 = written c := by
    unfold written
    rw [← (ledger_talk c.log).2, ← (ledger_talk c1.log).2, h3]
  cases h with
  | same k1 k2 k3 k4 =>
    unfold marked at k4
    rw [hw] at k4
    exact .same (k1.trans h1) (k2.trans h2) (h3 ▸ k3) k4
  | anew xs k1 k2 k3 k4 k5 => exact .anew xs (h1 ▸ k1) (by rw [k2, h2]) (k3.trans h3) k4 k5

theorem lastHead_append (a b : List CEv) : lastHead (a ++ b) = b.foldl nextHead (lastHead a) := by simp [lastHead, List.foldl_append]

theorem lastHead_some {a b : List CEv} {hs : Headers} (h : lastHead (a ++ b) = some hs) (ha : lastHead a = none) : ∃ st, .headersCompleted st hs ∈ b := by
  rw [lastHead_append, ha] at h
  suffices key : ∀ (l : List CEv) (t : Option Headers), l.foldl nextHead t = some hs → t = some hs ∨ ∃ st, .headersCompleted st hs ∈ l by
    rcases key b none h with k | k
    · cases k
    · exact k
  intro l
  induction l with
  | nil => intro t h; exact .inl h
  | cons e l ih =>
    intro t h
    rw [List.foldl_cons] at h
    rcases ih _ h with k | ⟨st, k⟩
    · cases e with
      | write p d => cases k
      | headersCompleted st hs' =>
        have k : some hs' = some hs := k
        cases k
        exact .inr ⟨st, List.mem_cons_self⟩
      | _ => exact .inl k
    · exact .inr ⟨st, List.mem_cons_of_mem _ k⟩

theorem lastHead_none {a k : List CEv} {p : Bytes × Nat} {d : Bytes} (h : ∀ st hs, .headersCompleted st hs ∉ k) : lastHead (a ++ .write p d :: k) = none := by
  cases hl : lastHead (a ++ .write p d :: k) with
  | none => rfl
  | some hs =>
    exfalso
    rw [List.append_cons] at hl
    obtain ⟨st, hm⟩ := lastHead_some hl (by rw [lastHead_append]; rfl)
    exact h st hs hm

theorem lastHead_write {a : List CEv} {p : Bytes × Nat} {d : Bytes} : lastHead (a ++ [.write p d]) = none := lastHead_none (by simp)

theorem waiting_now {env : ClientEnv} {fuel : Nat} {es : List Ev} {arr : Bytes} {mark : Nat} {c : Client} (ht : Top c) (hf : Fresh c) (hp : c.responsePending = true) (hc : c.sock.state = .connected) (hs : Scripts c)
    {d : Bytes} (h1 : (ledger c.log).taken = []) (h2 : (ledger c.log).current = some ⟨c.request, d, none⟩) (h3 : Matched env (cut es).full (ledger c.log).done) (h4 : arr = ((cut es).full.take (ledger c.log).done.length).flatten)
    (h5 : lastHead c.log = none) (h6 : mark = arr.length) : Mode env fuel es arr mark c :=
  .waiting c [] d ht hf ⟨hp, hc, hs.headers, hs.content⟩ (by simp) rfl ⟨[], by simp, minors_nil⟩ hp hc h1 h2 h3 (by rw [h4]; simp [incoming]) ⟨h5, by rw [h6, h4]⟩

theorem open_advance {env : ClientEnv} {fuel : Nat} {es : List Ev} {arr : Bytes} {mark : Nat} {c c' : Client} {r : ClientRequest} (ho : Opening c r c') (ht : Top c') (hf : Fresh c') (hw : Ways c')
    (hm : Matched env (cut es).full (ledger c.log).entries) (ha : arr = ((cut es).full.take (ledger c.log).entries.length).flatten) : Advance env fuel es arr mark c c' := by
  rcases ho.shape with ⟨p, d, e1, e2, -⟩ | ⟨k, host, port, hk, ⟨e1, -⟩ | ⟨p, d, e1, e2⟩⟩
  · have hl : ledger c'.log = { (ledger c.log) with last := some r, taken := [], done := (ledger c.log).entries, current := some ⟨r, d, none⟩ } := by
      rw [e1, ledger_append]; rfl
    refine .same ?_ (by rw [hl]) ?_ (waiting_now (d := d) ht hf ho.pending e2 ho.scripts (by rw [hl]) (by rw [hl, ho.request]) (by rw [hl]; exact hm) (by rw [hl]; exact ha) (by rw [e1, lastHead_append]; rfl) ?_)
    · rw [e1, connects_append]; rfl
    · rw [hl]
      show _ <+: pairs ((ledger c.log).entries ++ [_])
      rw [pairs_append]
      exact List.prefix_append _ _
    · unfold marked
      rw [if_neg]
      rw [written_eq, written_eq, hl]
      simp [Ledger.entries]
  · have e3 : c'.log = (c.log ++ [.accepted r]) ++ k ++ [.connectToHost host port] := by rw [e1]; simp
    have hl : ledger c'.log = { last := some r, taken := (ledger c.log).taken ++ taken k, past := (ledger c.log).past ++ [(ledger c.log).entries], done := [], current := none } := by
      rw [e3, ledger_snoc, ledger_minors hk, ledger_snoc]; rfl
    refine .anew (ledger c.log).entries ?_ (by rw [hl]) rfl (.inl hm) ?_
    · rw [e3, connects_append, connects_append, connects_append]
      show connects c.log + 0 + connects k + 1 ≠ _
      omega
    · have hnw : ¬ Written c'.log := by
        rintro ⟨l1, p, d, l2, e, hl2⟩
        rw [e1, List.append_assoc, List.cons_append] at e
        rcases List.append_eq_append_iff.1 e with ⟨x, h3, h4⟩ | ⟨x, h3, h4⟩
        · cases x with
          | nil => simp at h4
          | cons y x =>
            simp only [List.cons_append, List.cons.injEq] at h4
            have : CEv.write p d ∈ k ++ [.connectToHost host port] := by rw [h4.2]; simp
            rcases List.mem_append.1 this with h | h
            · exact hk _ h
            · simp at h
        · cases x with
          | nil => simp at h4
          | cons y x =>
            simp only [List.cons_append, List.cons.injEq] at h4
            exact hl2 r (by rw [h4.2]; simp)
      have hst : c'.sock.state = .connecting := by
        rcases hw ho.pending with h | ⟨-, h⟩
        · exact h
        · exact absurd h hnw
      exact .opening ho.pending hst hf (by rw [hl]; rfl) (by rw [hl, ho.request]) rfl
  · have e3 : c'.log = (c.log ++ [.accepted r]) ++ k ++ [.connectToHost host port, .write p d] := by rw [e1]; simp
    have hl : ledger c'.log = { last := some r, taken := [], past := (ledger c.log).past ++ [(ledger c.log).entries], done := [], current := some ⟨r, d, none⟩ } := by
      rw [e3, ledger_append, ledger_minors hk, ledger_snoc]; rfl
    refine .anew (ledger c.log).entries ?_ (by rw [hl]) rfl (.inl hm) (waiting_now (d := d) ht hf ho.pending e2 ho.scripts (by rw [hl]) (by rw [hl, ho.request]) (by rw [hl]; exact matched_nil) (by rw [hl]; rfl) ?_ rfl)
    · rw [e3, connects_append, connects_append, connects_append]
      show connects c.log + 0 + connects k + 1 ≠ _
      omega
    · rw [e3, lastHead_append]; rfl

/-! ## What has arrived -/

theorem fit_answers {r : ClientRequest} {v : ReqView} (h : v.method = b!"HEAD" ↔ IsHead r) {interims : List Response} {m : Response} (hf : Fit (v.method = b!"HEAD") interims m) : Answers r m :=
  ⟨fun k => hf.get (fun e => k (h.1 e)), fun k => hf.head (h.2 k)⟩

/-- The answer that is on its way has been cut, or has arrived. -/
theorem arrivals {env : ClientEnv} {qs : List (ClientRequest × Bytes)} {s : Conf} {es : List Ev} (h : Attached env qs s es) {n : Nat} {r : ClientRequest} {d : Bytes} (hn : qs.length = n + 1)
    (hr : qs[n]? = some (r, d)) (hF : n ≤ (cut es).full.length) {inputs : List CInput} (hs : ∀ i ∈ inputs, Steady i)
    (ha : ((cut es).full.take n).flatten ++ incoming inputs <+: wireOf es) :
    ((∃ interims m more, BreaksOff r interims m inputs more) ∧ ¬ ((cut es).full.length = n + 1 ∧ ((cut es).full.take n).flatten ++ incoming inputs = wireOf es)) ∨
      ((cut es).full.length = n + 1 ∧ (cut es).part = [] ∧ ∃ f, (cut es).full[n]? = some f ∧ incoming inputs = f ∧ (∃ a, Full env a f ∧ Delivered r a.request) ∧
        ∀ a, Full env a f → Delivered r a.request → ∃ interims m, Paced r interims m inputs ∧ num m.head.status = a.head.status.toNat ∧ HeadersOf a.request a.head m.head.shown ∧ m.content = a.content ∧
          (¬ Gzipped m.head.shown ∨ env.inflate = none)) := by
  have hb := attached_base h
  have hfew := hb.few
  have hq := attached_few h
  have hask : Askable r := (h.sent (r, d) (List.mem_of_getElem? hr)).2
  rw [cut_wire] at ha
  rcases Nat.lt_or_ge n (cut es).full.length with hl | hl
  · have hlen : (cut es).full.length = n + 1 := by omega
    have hp : (cut es).part = [] := by
      rcases Classical.em ((cut es).part = []) with k | k
      · exact k
      · have := attached_bound h k; omega
    obtain ⟨f, hf⟩ : ∃ f, (cut es).full[n]? = some f := ⟨_, List.getElem?_eq_getElem hl⟩
    have hfl : (cut es).full.flatten = ((cut es).full.take n).flatten ++ f := by
      rw [← take_one_more hf, ← hlen, List.take_length]
    rw [hp, List.append_nil, hfl] at ha
    obtain ⟨more, hmore⟩ := ha
    rw [List.append_assoc] at hmore
    have hmore := List.append_cancel_left hmore
    obtain ⟨a0, -, ha1, ha2⟩ := hb.frames n f hf
    obtain ⟨q, hq1, hq2⟩ := attached_requests h n _ ha1
    rw [hr] at hq1
    cases hq1
    rcases Classical.em (more = []) with hm | hm
    · rw [hm, List.append_nil] at hmore
      refine .inr ⟨hlen, hp, f, hf, hmore, ⟨a0, ha2, hq2⟩, fun a hfull hdel => ?_⟩
      obtain ⟨interims, m, k1, k2, k3, k4, k5, k6⟩ := hfull
      exact ⟨interims, m, ⟨k1.continues, k1.few, fit_answers (delivered_head hdel hask) k1, k1.final, hs, hmore.trans k2⟩, k3, k4, k5, k6⟩
    · obtain ⟨interims, m, k1, k2, -⟩ := ha2
      refine .inl ⟨⟨interims, m, more, ⟨k1.continues, k1.few, fit_answers (delivered_head hq2 hask) k1, k1.final, hs, hmore.trans k2, hm⟩⟩, fun hx => hm ?_⟩
      have hx := hx.2
      rw [cut_wire, hp, List.append_nil, hfl] at hx
      rw [← List.append_cancel_left hx] at hmore
      simpa using hmore
  · have hlen : (cut es).full.length = n := by omega
    rw [List.take_of_length_le (by omega)] at ha
    obtain ⟨rest, hrest⟩ := ha
    rw [List.append_assoc] at hrest
    have hrest := List.append_cancel_left hrest
    refine .inl ⟨?_, fun hx => by omega⟩
    rcases hb.part with ⟨k, -⟩ | ⟨v, k1, -, k2⟩
    · obtain ⟨interims, more, k1, k2, k3⟩ := lead_part k (IsHead r) (.inl rfl)
      refine ⟨interims, _, rest ++ more, ⟨k1.continues, k1.few, ⟨k1.get, k1.head⟩, k1.final, hs, ?_, by simp [k3]⟩⟩
      rw [← List.append_assoc, hrest]
      exact k2
    · rw [hlen] at k1
      obtain ⟨q, hq1, hq2⟩ := attached_requests h n _ k1
      rw [hr] at hq1
      cases hq1
      obtain ⟨interims, m, more, x, k1, k2, k3, -⟩ := k2 0
      refine ⟨interims, m, rest ++ more, ⟨k1.continues, k1.few, fit_answers (delivered_head hq2 hask) k1, k1.final, hs, ?_, by simp [k3]⟩⟩
      rw [← List.append_assoc, hrest]
      exact k2

/-- What has arrived of the answer that is on its way. -/
theorem arriving {env : ClientEnv} {qs : List (ClientRequest × Bytes)} {s : Conf} {es : List Ev} (h : Attached env qs s es) {n : Nat} {r : ClientRequest} {d : Bytes} (hn : qs.length = n + 1)
    (hr : qs[n]? = some (r, d)) (hF : n ≤ (cut es).full.length) {inputs : List CInput} (hs : ∀ i ∈ inputs, Steady i)
    (ha : ((cut es).full.take n).flatten ++ incoming inputs <+: wireOf es) :
    (∃ a, (answers es)[n]? = some a ∧ Delivered r a.request ∧ ∀ b : UInt8, ∃ interims m k, Begun r interims m inputs ∧ num m.head.status = a.head.status.toNat ∧ HeadersOf a.request a.head m.head.shown ∧
        m.content = a.content ++ List.replicate k b ∧ (¬ Gzipped m.head.shown ∨ env.inflate = none)) ∨
      ∀ st, st = b!"200" ∨ st = b!"404" → ∃ interims, Begun r interims (dummy st) inputs := by
  have hb := attached_base h
  have hfew := hb.few
  have hq := attached_few h
  have hask : Askable r := (h.sent (r, d) (List.mem_of_getElem? hr)).2
  rw [cut_wire] at ha
  rcases Nat.lt_or_ge n (cut es).full.length with hl | hl
  · have hlen : (cut es).full.length = n + 1 := by omega
    have hp : (cut es).part = [] := by
      rcases Classical.em ((cut es).part = []) with k | k
      · exact k
      · have := attached_bound h k; omega
    obtain ⟨f, hf⟩ : ∃ f, (cut es).full[n]? = some f := ⟨_, List.getElem?_eq_getElem hl⟩
    have hfl : (cut es).full.flatten = ((cut es).full.take n).flatten ++ f := by
      rw [← take_one_more hf, ← hlen, List.take_length]
    rw [hp, List.append_nil, hfl] at ha
    obtain ⟨more, hmore⟩ := ha
    rw [List.append_assoc] at hmore
    have hmore := List.append_cancel_left hmore
    obtain ⟨a0, ha0, ha1, ha2⟩ := hb.frames n f hf
    obtain ⟨q, hq1, hq2⟩ := attached_requests h n _ ha1
    rw [hr] at hq1
    cases hq1
    obtain ⟨interims, m, k1, k2, k3, k4, k5, k6⟩ := ha2
    refine .inl ⟨a0, ha0, hq2, fun b => ⟨interims, m, 0, ⟨k1.continues, k1.few, fit_answers (delivered_head hq2 hask) k1, k1.final, hs, ⟨more, hmore.trans k2⟩⟩, k3, k4, by rw [k5]; simp, k6⟩⟩
  · have hlen : (cut es).full.length = n := by omega
    rw [List.take_of_length_le (by omega)] at ha
    obtain ⟨rest, hrest⟩ := ha
    rw [List.append_assoc] at hrest
    have hrest := List.append_cancel_left hrest
    rcases hb.part with ⟨k, -⟩ | ⟨v, k1, k0, k2⟩
    · refine .inr fun st hst => ?_
      obtain ⟨interims, more, k1, k2, k3⟩ := lead_part k (IsHead r) hst
      refine ⟨interims, ⟨k1.continues, k1.few, ⟨k1.get, k1.head⟩, k1.final, hs, ⟨rest ++ more, ?_⟩⟩⟩
      rw [← List.append_assoc, hrest]
      exact k2
    · rw [hlen] at k1 k0
      obtain ⟨q, hq1, hq2⟩ := attached_requests h n _ k1
      rw [hr] at hq1
      cases hq1
      refine .inl ⟨v, k0, hq2, fun b => ?_⟩
      obtain ⟨interims, m, more, x, k1, k2, k3, k4, k5, k6, k7⟩ := k2 b
      refine ⟨interims, m, x, ⟨k1.continues, k1.few, fit_answers (delivered_head hq2 hask) k1, k1.final, hs, ⟨rest ++ more, ?_⟩⟩, k4, k5, k6, k7⟩
      rw [← List.append_assoc, hrest]
      exact k2

/-! ## One step of the client -/

theorem incoming_snoc {inputs : List CInput} {i : CInput} (h : ∀ bs, i ≠ .arrive bs) : incoming (inputs ++ [i]) = incoming inputs := by
  unfold incoming
  rw [List.map_append, List.flatten_append]
  cases i <;> first | exact absurd rfl (h _) | simp

/-- The request has ended. -/
theorem ledger_finished {a l1 l2 : List CEv} {e : CError} {st : Nat} {hs : Headers} {ct : Bytes} (h1 : Minors l1) (h2 : Minors l2) {x : Entry} (hx : (ledger a).current = some x) (ho : x.outcome = none) :
    ledger (a ++ l1 ++ .finished e st hs ct :: l2) = { (ledger a) with taken := (ledger a).taken ++ taken l1 ++ taken l2, current := some { x with outcome := some ⟨e, st, hs, (ledger a).taken ++ taken l1 ++ ct⟩ } } := by
  rw [List.append_cons, ledger_minors h2, ledger_snoc, ledger_minors h1]
  simp only [Ledger.next, hx, ho, Option.map_some]
  rfl

theorem connects_finished {a l1 l2 : List CEv} {e : CError} {st : Nat} {hs : Headers} {ct : Bytes} (h1 : Minors l1) (h2 : Minors l2) : connects (a ++ l1 ++ .finished e st hs ct :: l2) = connects a := by
  rw [List.append_cons, connects_append, connects_append, connects_append, connects_minors h1, connects_minors h2]
  rfl

theorem minors_entries {a l : List CEv} (h : Minors l) : (ledger (a ++ l)).entries = (ledger a).entries ∧ (ledger (a ++ l)).past = (ledger a).past ∧ (ledger (a ++ l)).last = (ledger a).last ∧ connects (a ++ l) = connects a := by
  rw [ledger_minors h, connects_append, connects_minors h]
  exact ⟨rfl, rfl, rfl, rfl⟩

/-- While the answer is not complete, nothing happens. -/
theorem unanswered_stays {c0 c c' : Client} {l : List CEv} (hl : c.log = c0.log ++ l) (hp : c.responsePending = true) (hc : c.sock.state = .connected) (h : Turn c c') (hu : Unanswered c0 c') :
    (∃ k, c'.log = c.log ++ k ∧ Minors k) ∧ Scripts c' := by
  obtain ⟨k, e, hk⟩ := hu.log
  have bad : ∀ {l1 l2 : List CEv} {e : CError} {st : Nat} {hs : Headers} {ct : Bytes} (c1 : Client), c1.log = c.log ++ l1 ++ .finished e st hs ct :: l2 → c1.log <+: c'.log → False := by
    intro l1 l2 e' st hs ct c1 h1 ⟨t, h2⟩
    rw [← h2, h1, hl] at e
    simp only [List.append_assoc] at e
    have e := List.append_cancel_left e
    exact hk e' st hs ct (by rw [← e]; simp)
  cases h with
  | stays l k1 k2 k3 k4 => exact ⟨⟨l, k1, k2⟩, k4⟩
  | ends l1 e st hs ct l2 k1 k2 k3 k4 k5 k6 => rw [hu.pending] at k5; cases k5
  | renews l1 e st hs ct l2 r c1 k1 k2 k3 k4 k5 =>
    refine (bad c1 k2 ?_).elim
    rcases k5.shape with ⟨p, d, e1, -⟩ | ⟨k, host, port, -, ⟨e1, -⟩ | ⟨p, d, e1, -⟩⟩ <;> rw [e1] <;> (try simp only [List.append_assoc]) <;> exact List.prefix_append _ _
  | starts l r c1 k1 k2 k3 k4 => rw [hp] at k3; cases k3
  | writes p d k1 k2 k3 k4 k5 k6 k7 => rw [hc] at k2; cases k2
  | fails l1 e st hs ct l2 k1 k2 k3 k4 => exact (bad c' k2 (List.prefix_refl _)).elim

theorem reports_content {env : ClientEnv} {hd : Prop} {before log : List CEv} {m : Response} (h : Reports env hd before log m) (hz : ¬ Gzipped m.head.shown ∨ env.inflate = none) :
    ∃ l₁ ct l₂, log = before ++ l₁ ++ .finished .noError (num m.head.status) m.head.shown ct :: l₂ ∧ (∀ e st hs ct, .finished e st hs ct ∉ l₁) ∧ taken l₁ ++ ct = m.content := by
  obtain ⟨l₁, ct, l₂, all, h1, h2, h3, h4, h5⟩ := h
  refine ⟨l₁, ct, l₂, h1, fun e st hs ct hm => ?_, by rw [h3]; exact h5.2 (hz.imp id Or.inl)⟩
  have := signals_mem hm
  rw [h2] at this
  simp at this

/-- A request has been made, by a client without a connection. -/
theorem dial_advance {env : ClientEnv} {fuel : Nat} {es : List Ev} {arr : Bytes} {mark : Nat} {c c' : Client} {r : ClientRequest} (ho : Dialing c r c') (ht : Top c') (hf : Fresh c') (hw : Ways c')
    (hc : Closed env es (ledger c.log).entries) : Advance env fuel es arr mark c c' := by
  obtain ⟨host, port, k, hk, ⟨hk1, hk2⟩, e1 | ⟨p, d, e1, e2⟩⟩ := ho.shape
  · have e3 : c'.log = (c.log ++ [.accepted r, .connectToHost host port]) ++ k := by rw [e1]
    have hl : ledger c'.log = { last := some r, taken := (ledger c.log).taken, past := (ledger c.log).past ++ [(ledger c.log).entries], done := [], current := none } := by
      rw [e3, ledger_minors hk, ledger_append, hk1, List.append_nil]; rfl
    refine .anew (ledger c.log).entries ?_ (by rw [hl]) rfl hc ?_
    · rw [e3, connects_append, connects_append, connects_minors hk]
      show connects c.log + 1 + 0 ≠ _
      omega
    · have hnw : ¬ Written c'.log := by
        rintro ⟨l1, p, d, l2, e, hl2⟩
        rw [e1, List.append_assoc, List.cons_append] at e
        rcases List.append_eq_append_iff.1 e with ⟨x, h3, h4⟩ | ⟨x, h3, h4⟩
        · cases x with
          | nil => simp at h4
          | cons y x =>
            simp only [List.cons_append, List.nil_append, List.cons.injEq] at h4
            have : CEv.write p d ∈ CEv.connectToHost host port :: k := by rw [h4.2]; simp
            rcases List.mem_cons.1 this with h | h
            · cases h
            · exact hk _ h
        · cases x with
          | nil => simp at h4
          | cons y x =>
            simp only [List.cons_append, List.cons.injEq] at h4
            exact hl2 r (by rw [h4.2]; simp)
      have hst : c'.sock.state = .connecting := by
        rcases hw ho.pending with h | ⟨-, h⟩
        · exact h
        · exact absurd h hnw
      exact .opening ho.pending hst hf (by rw [hl]; rfl) (by rw [hl, ho.request]) rfl
  · have hl : ledger c'.log = { last := some r, taken := [], past := (ledger c.log).past ++ [(ledger c.log).entries], done := [], current := some ⟨r, d, none⟩ } := by
      rw [e1, ledger_minors hk, ledger_append, hk1, List.append_nil]; rfl
    refine .anew (ledger c.log).entries ?_ (by rw [hl]) rfl hc (waiting_now (d := d) ht hf ho.pending e2 ho.scripts (by rw [hl]) (by rw [hl, ho.request]) (by rw [hl]; exact matched_nil) (by rw [hl]; rfl) ?_ rfl)
    · rw [e1, connects_append, connects_append, connects_minors hk]
      show connects c.log + 1 + 0 ≠ _
      omega
    · rw [e1, show c.log ++ [.accepted r, .connectToHost host port, .write p d] ++ k = (c.log ++ [.accepted r, .connectToHost host port]) ++ .write p d :: k by simp]
      exact lastHead_none hk2

/-- What follows when there is neither a request nor a connection. -/
theorem onward_advance {env : ClientEnv} {fuel : Nat} {es : List Ev} {arr : Bytes} {mark : Nat} {c c' : Client} (ho : Onward c c') (ht : Top c') (hf : Fresh c') (hw : Ways c')
    (hc : Closed env es (ledger c.log).entries) (hm : Loose c' → (ledger c'.log).entries = (ledger c.log).entries → ∀ m, Mode env fuel es arr m c') :
    Advance env fuel es arr mark c c' ∧ Scripts c' := by
  rcases ho with ⟨l, h1, h2, h3⟩ | ⟨l, r, c1, h1, h2, h3⟩
  · obtain ⟨m1, m2, m3, m4⟩ := minors_entries (a := c.log) h2
    rw [← h1] at m1 m2 m3 m4
    exact ⟨.same m4 m2 (by rw [m1]; exact List.prefix_refl _) (hm h3 m1 _), h3.scripts⟩
  · obtain ⟨m1, m2, m3, m4⟩ := minors_entries (a := c.log) h2
    rw [← h1] at m1 m2 m3 m4
    exact ⟨(dial_advance h3 ht hf hw (by rw [m1]; exact hc)).of m4 m2 (by rw [m1]), h3.scripts⟩

theorem errorOf_ne {i : CInput} (h : Failure i) : errorOf i ≠ .noError := by
  cases i with
  | error rc => cases rc <;> simp [errorOf]
  | call u => simp [errorOf]
  | _ => exact h.elim

theorem client_advance {env : ClientEnv} {fuel : Nat} {c : Client} {arr : Bytes} {mark : Nat} {s : Conf} {es : List Ev} (hmode : Mode env fuel es arr mark c) (ht : Top c) (hsc : Scripts c) (hw : Ways c)
    (hatt : Attached env (pairs (ledger c.log).entries) s es) (harr : arr <+: wireOf es) {i : CInput} (hoth : ∀ bs, i ≠ .arrive bs) (hse : Seasonable c i)
    (hqs : c.responsePending = true → Steady i ∨ (Failure i ∧ Spec.Pair.Clear env c arr.length mark ∧ .abort ∉ c.onFinished.headD [])) :
    Advance env fuel es arr mark c (c.step env fuel i) ∧ Scripts (c.step env fuel i) := by
  have ht' := ht.step env fuel i
  have hw' := step_ways env fuel hw hse
  cases hmode with
  | idle h1 h2 h3 h4 =>
    have hturn := turn_step env fuel ht hsc i (fun hp => by rw [h1] at hp; cases hp)
    have hf' : Fresh (c.step env fuel i) := step_fresh env fuel h2 fun bs e => absurd e (hoth bs)
    generalize c.step env fuel i = c' at *
    cases hturn with
    | stays l k1 k2 k3 k4 =>
      obtain ⟨m1, m2, m3, m4⟩ := minors_entries (a := c.log) k2
      rw [← k1] at m1 m2 m3 m4
      exact ⟨.same m4 m2 (by rw [m1]; exact List.prefix_refl _) (.idle (k3.trans h1) hf' (by rw [m1]; exact h3) (by rw [m1]; exact h4)), k4⟩
    | ends l1 e st hs ct l2 k1 => rw [h1] at k1; cases k1
    | renews l1 e st hs ct l2 r c1 k1 => rw [h1] at k1; cases k1
    | starts l r c1 k1 k2 k3 k4 =>
      obtain ⟨m1, m2, m3, m4⟩ := minors_entries (a := c.log) k2
      rw [← k1] at m1 m2 m3 m4
      exact ⟨(open_advance k4 ht' hf' hw' (by rw [m1]; exact h3) (by rw [m1]; exact h4)).of m4 m2 (by rw [m1]), k4.scripts⟩
    | writes p d k1 k2 k3 k4 k5 k6 k7 => rw [h1] at k4; cases k4
    | fails l1 e st hs ct l2 k1 => rw [h1] at k1; cases k1
  | opening h1 h2 h3 h4 h5 h6 =>
    have hf' : Fresh (c.step env fuel i) := step_fresh env fuel h3 fun bs e => absurd e (hoth bs)
    rcases hqs h1 with hsteady | ⟨hfail, -, hab⟩
    rotate_left
    · -- the request fails before it is written
      obtain ⟨e, c1, k1, k2, k3, k4, k5⟩ := fail_step env fuel h1 ht.parsing hsc hfail hse hab
      have hcur : (ledger c.log).done = [] ∧ (ledger c.log).current = none := by
        have := List.append_eq_nil_iff.1 h4
        refine ⟨this.1, ?_⟩
        cases hc : (ledger c.log).current with
        | none => rfl
        | some x => rw [hc] at this; cases this.2
      have hl : ledger c1.log = ledger c.log := by
        rw [k3, show c.log ++ [e, .finished (errorOf i) c.p.status c.d.headers c.d.content] = (c.log ++ [e]) ++ [.finished (errorOf i) c.p.status c.d.headers c.d.content] by simp, ledger_snoc, ledger_minors (minors_one k1), k2]
        simp only [Ledger.next, hcur.2, List.append_nil, Option.map_none]
        rw [← hcur.2]
      have hcn : connects c1.log = connects c.log := by
        rw [k3, show c.log ++ [e, .finished (errorOf i) c.p.status c.d.headers c.d.content] = c.log ++ [e] ++ .finished (errorOf i) c.p.status c.d.headers c.d.content :: [] by simp]
        exact connects_finished (minors_one k1) minors_nil
      obtain ⟨g1, g2⟩ := onward_advance (env := env) (fuel := fuel) (es := es) (arr := arr) (mark := mark) k5 ht' hf' hw' (by rw [hl, h4]; exact .inl matched_nil)
        (fun hL hE m => .idle hL.pending hf' (by rw [hE, hl, h4]; exact matched_nil) (by rw [hE, hl, h4]; exact h6))
      exact ⟨g1.of hcn (by rw [hl]) (by rw [hl]), g2⟩
    rcases empty_step env fuel h1 h3.rx hsc i hsteady hoth with k | k
    · generalize c.step env fuel i = c' at *
      obtain ⟨l, k1, k2⟩ := k.log
      obtain ⟨m1, m2, m3, m4⟩ := minors_entries (a := c.log) k2
      rw [← k1] at m1 m2 m3 m4
      exact ⟨.same m4 m2 (by rw [m1]; exact List.prefix_refl _) (.opening k.pending (k.state.trans h2) hf' (by rw [m1]; exact h4) (by rw [m3, k.request]; exact h5) h6), k.scripts⟩
    · generalize c.step env fuel i = c' at *
      obtain ⟨p, d, e1⟩ := k.log
      have hl : ledger c'.log = { (ledger c.log) with taken := [], done := [], current := some ⟨c.request, d, none⟩ } := by
        rw [e1, ledger_snoc]
        simp only [Ledger.next, h4, h5, Option.map_some]
      refine ⟨.same (by rw [e1, connects_append]; rfl) (by rw [hl]) (by rw [h4]; exact List.nil_prefix)
        (waiting_now (d := d) ht' hf' k.pending k.connected k.scripts (by rw [hl]) (by rw [hl, k.request]) (by rw [hl]; exact matched_nil) (by rw [hl]; exact h6)
          (by rw [e1]; exact lastHead_write) ?_), k.scripts⟩
      unfold marked
      rw [if_neg]
      rw [written_eq, written_eq, hl, h4]
      simp [Ledger.entries]
  | gone ys x h1 h2 h3 h4 h5 =>
    have hf' : Fresh (c.step env fuel i) := step_fresh env fuel h2 fun bs e => absurd e (hoth bs)
    exact onward_advance (loose_step env fuel h1 i) ht' hf' hw' (.inr ⟨ys, x, h3, h4, h5⟩) (fun hL hE m => .gone ys x hL hf' (hE.trans h3) h4 h5)
  | waiting c0 inputs d h1 h2 h3 h4 h5 h6 h7 h8 h9 h10 h11 h12 h13 =>
    obtain ⟨l0, hl0, hm0⟩ := h6
    rcases hqs h7 with hsteady | ⟨hfail, hclear, hab⟩
    rotate_left
    · -- the request fails
      obtain ⟨m1, m2, m3, m4⟩ := minors_entries (a := c0.log) hm0
      rw [← hl0] at m1 m2 m3 m4
      have hent : (ledger c.log).entries = (ledger c0.log).done ++ [⟨c0.request, d, none⟩] := by rw [m1]; unfold Ledger.entries; rw [h10]; rfl
      rw [hent, pairs_append] at hatt
      have hnf : ∀ e st hs ct, .finished e st hs ct ∉ l0 := fun e st hs ct => minors_no_finished hm0
      have hrl : (c0.run env fuel inputs).log = c0.log ++ l0 := by rw [← h5]; exact hl0
      have hold : Clean c ∧ (taken l0 ++ c.d.content = [] ∨ ∃ a, (answers es)[(ledger c0.log).done.length]? = some a ∧ Delivered c0.request a.request ∧
          IsPart ⟨errorOf i, c.p.status, c.d.headers, taken l0 ++ c.d.content⟩ a) := by
        have harrv := arriving (n := (ledger c0.log).done.length) (r := c0.request) (d := d) (inputs := inputs) hatt (by simp [pairs]) (by simp [pairs]) h11.len h4 (by rw [← h12]; exact harr)
        rcases hclear with hclear | ⟨hs, hhead, hz⟩
        · have hn : (incoming inputs).length ≤ (c0.run env fuel inputs).sock.rx.length := by
            rw [← h5]
            rw [h12, h13.2, List.length_append] at hclear
            omega
          obtain ⟨interims, m, hbeg⟩ : ∃ interims m, Begun c0.request interims m inputs := by
            rcases harrv with ⟨a, -, -, k⟩ | k
            · obtain ⟨interims, m, -, k, -⟩ := k 0
              exact ⟨interims, m, k⟩
            · obtain ⟨interims, k⟩ := k _ (.inl rfl)
              exact ⟨interims, _, k⟩
          obtain ⟨k1, k2⟩ := unread_clean (fuel := fuel) h1 h2 h3 hbeg hrl hnf hn
          rw [← h5] at k1 k2
          exact ⟨k1, .inl k2⟩
        · rw [hl0] at hhead
          obtain ⟨st, hst⟩ := lastHead_some hhead h13.1
          have hpend : (c0.run env fuel inputs).responsePending = true := by rw [← h5]; exact h7
          rcases harrv with ⟨a, a1, a2, k⟩ | k
          · obtain ⟨is0, r0, n0, b0, s0, u0, w0, z0⟩ := k 0
            obtain ⟨is1, r1, n1, b1, s1, u1, w1, z1⟩ := k 1
            obtain ⟨k1, k2, k3, k4, k5⟩ := shown_clean (fuel := fuel) h1 h2 h3 b0 hpend hrl hst hnf
            have k1 := k1 hz
            have p0 := begun_seen (fuel := fuel) h1 h2 h3 b0 hrl hnf z0
            have p1 := begun_seen (fuel := fuel) h1 h2 h3 b1 hrl hnf z1
            rw [w0] at p0
            rw [w1] at p1
            rw [← h5] at k1 k4 k5 p0 p1
            exact ⟨k1, .inr ⟨a, a1, a2, by rw [← s0]; exact k5, by rw [show (⟨errorOf i, c.p.status, c.d.headers, taken l0 ++ c.d.content⟩ : Outcome).headers = c.d.headers from rfl, k4]; exact u0, prefix_of_padded p0 p1⟩⟩
          · exfalso
            obtain ⟨is0, b0⟩ := k _ (.inl rfl)
            obtain ⟨is1, b1⟩ := k _ (.inr rfl)
            have e0 := (shown_clean (fuel := fuel) h1 h2 h3 b0 hpend hrl hst hnf).2.1
            have e1 := (shown_clean (fuel := fuel) h1 h2 h3 b1 hpend hrl hst hnf).2.1
            rw [e0] at e1
            exact absurd e1 (by decide +kernel)
      obtain ⟨hclean, hpart⟩ := hold
      have hf' := failure_fresh (env := env) (fuel := fuel) hclean hfail
      obtain ⟨e, c1, k1, k2, k3, k4, k5⟩ := fail_step env fuel h7 ht.parsing hsc hfail hse hab
      have e3 : c1.log = c.log ++ [e] ++ .finished (errorOf i) c.p.status c.d.headers c.d.content :: [] := by rw [k3]; simp
      have hcur : (ledger c.log).current = some ⟨c0.request, d, none⟩ := by rw [hl0, ledger_minors hm0]; exact h10
      have hled := ledger_finished (a := c.log) (e := errorOf i) (st := c.p.status) (hs := c.d.headers) (ct := c.d.content) (minors_one k1) minors_nil hcur rfl
      rw [← e3] at hled
      have hdone : (ledger c.log).done = (ledger c0.log).done := by rw [hl0, ledger_minors hm0]
      have htaken : (ledger c.log).taken = taken l0 := by rw [hl0, ledger_minors hm0]; show (ledger c0.log).taken ++ _ = _; rw [h9]; rfl
      have hE : (ledger c1.log).entries = (ledger c0.log).done ++ [⟨c0.request, d, some ⟨errorOf i, c.p.status, c.d.headers, taken l0 ++ c.d.content⟩⟩] := by
        rw [hled]
        unfold Ledger.entries
        rw [htaken, hdone, k2, List.append_nil]
        rfl
      have hlost : Lost es (ledger c0.log).done.length ⟨c0.request, d, some ⟨errorOf i, c.p.status, c.d.headers, taken l0 ++ c.d.content⟩⟩ := ⟨_, rfl, errorOf_ne hfail, hpart⟩
      obtain ⟨g1, g2⟩ := onward_advance (env := env) (fuel := fuel) (es := es) (arr := arr) (mark := mark) k5 ht' hf' hw' (.inr ⟨_, _, hE, h11, hlost⟩) (fun hL hE' m => .gone _ _ hL hf' (hE'.trans hE) h11 hlost)
      exact ⟨g1.of (by rw [e3]; exact connects_finished (minors_one k1) minors_nil) (by rw [hled]) (by rw [hE, hent, pairs_append, pairs_append]; rfl), g2⟩
    have hturn := turn_step env fuel ht hsc i (fun _ => hsteady)
    have hst' : ∀ j ∈ inputs ++ [i], Steady j := by
      intro j hj
      rcases List.mem_append.1 hj with hj | hj
      · exact h4 j hj
      · rw [List.mem_singleton.1 hj]; exact hsteady
    have hinc := incoming_snoc (inputs := inputs) hoth
    have hrun : c.step env fuel i = c0.run env fuel (inputs ++ [i]) := by rw [run_append, ← h5]; rfl
    obtain ⟨m1, m2, m3, m4⟩ := minors_entries (a := c0.log) hm0
    rw [← hl0] at m1 m2 m3 m4
    have hent : (ledger c.log).entries = (ledger c0.log).done ++ [⟨c0.request, d, none⟩] := by rw [m1]; unfold Ledger.entries; rw [h10]; rfl
    rw [hent, pairs_append] at hatt
    -- what happens while the answer is not complete
    have stay : Unanswered c0 (c.step env fuel i) → Advance env fuel es arr mark c (c.step env fuel i) ∧ Scripts (c.step env fuel i) := by
      intro hu
      obtain ⟨⟨k, k1, k2⟩, k3⟩ := unanswered_stays hl0 h7 h8 hturn hu
      obtain ⟨n1, n2, n3, n4⟩ := minors_entries (a := c.log) k2
      rw [← k1] at n1 n2 n3 n4
      refine ⟨.same n4 n2 (by rw [n1]; exact List.prefix_refl _) (.waiting c0 (inputs ++ [i]) d h1 h2 h3 hst' hrun ⟨l0 ++ k, by rw [k1, hl0]; simp, minors_append hm0 k2⟩ hu.pending hu.connected h9 h10 h11 ?_ ⟨h13.1, ?_⟩), k3⟩
      · rw [hinc]; exact h12
      · unfold marked
        rw [if_pos (by rw [written_eq, written_eq, n1])]
        exact h13.2
    rcases arrivals (n := (ledger c0.log).done.length) (r := c0.request) (d := d) (inputs := inputs ++ [i]) hatt (by simp [pairs]) (by simp [pairs]) h11.len hst'
        (by rw [hinc, ← h12]; exact harr) with ⟨⟨interims, m, more, hb⟩, -⟩ | ⟨-, -, f, hf1, hf2, ⟨a0, ha1, ha2⟩, hall⟩
    · exact stay (by rw [hrun]; exact broken_unanswered h1 h2 h3 hb)
    · obtain ⟨interims, m, hpaced, q1, q2, q3, q4⟩ := hall a0 ha1 ha2
      rcases paced_answered (env := env) (fuel := fuel) h1 h2 h3 hpaced with ⟨hrep, hfresh⟩ | ⟨hu, -⟩
      · rw [← hrun] at hrep hfresh
        -- the request has ended
        have hend : ∀ a, Full env a f → Delivered c0.request a.request → ∃ l₁ ct l₂ st hs, (c.step env fuel i).log = c0.log ++ l₁ ++ .finished .noError st hs ct :: l₂ ∧
            (∀ e st hs ct, .finished e st hs ct ∉ l₁) ∧ IsAnswer ⟨.noError, st, hs, taken l₁ ++ ct⟩ a := by
          intro a hfull hdel
          obtain ⟨interims', m', hpaced', q1', q2', q3', q4'⟩ := hall a hfull hdel
          rcases paced_answered (env := env) (fuel := fuel) h1 h2 h3 hpaced' with ⟨hrep', -⟩ | ⟨hu, -⟩
          · rw [← hrun] at hrep'
            obtain ⟨l₁, ct, l₂, e1, e2, e3⟩ := reports_content hrep' q4'
            exact ⟨l₁, ct, l₂, _, _, e1, e2, ⟨rfl, q1', q2', by rw [e3, q3']⟩⟩
          · exfalso
            obtain ⟨k, e, hk⟩ := hu.log
            rw [← hrun] at e
            obtain ⟨l₁, ct, l₂, e1, -⟩ := reports_content hrep q4
            rw [e1, List.append_assoc] at e
            have e := List.append_cancel_left e
            exact hk .noError (num m.head.status) m.head.shown ct (by rw [← e]; simp)
        have hans : ∀ {l1 l2 : List CEv} {e : CError} {st : Nat} {hs : Headers} {ct : Bytes} (c1 : Client), c1.log = c.log ++ l1 ++ .finished e st hs ct :: l2 → Minors l1 → Minors l2 →
            c1.log <+: (c.step env fuel i).log →
            (Matched env (cut es).full (ledger c1.log).entries ∧ arr = ((cut es).full.take (ledger c1.log).entries.length).flatten) ∧ connects c1.log = connects c.log ∧
              (ledger c1.log).past = (ledger c.log).past ∧ pairs (ledger c1.log).entries = pairs (ledger c.log).entries := by
          intro l1 l2 e st hs ct c1 k1 k2 k3 ⟨t, k4⟩
          have hcur : (ledger c.log).current = some ⟨c0.request, d, none⟩ := by rw [hl0, ledger_minors hm0]; exact h10
          have hled := ledger_finished (a := c.log) (e := e) (st := st) (hs := hs) (ct := ct) k2 k3 hcur rfl
          rw [← k1] at hled
          have hdone : (ledger c.log).done = (ledger c0.log).done := by rw [hl0, ledger_minors hm0]
          have htaken : (ledger c.log).taken = taken l0 := by rw [hl0, ledger_minors hm0]; show (ledger c0.log).taken ++ _ = _; rw [h9]; rfl
          have hexp : Explained env ⟨c0.request, d, some ⟨e, st, hs, taken l0 ++ taken l1 ++ ct⟩⟩ f := by
            refine ⟨_, rfl, fun a hfull hdel => ?_⟩
            obtain ⟨l₁, ct', l₂, st', hs', e1, e2, e3⟩ := hend a hfull hdel
            rw [← k4, k1, hl0, List.append_assoc c0.log, List.append_assoc] at e1
            obtain ⟨n1, n2, n3, n4, n5, -⟩ := first_finished e1 (fun e st hs ct hm => by
              rcases List.mem_append.1 hm with hm | hm
              · exact minors_no_finished hm0 hm
              · exact minors_no_finished k2 hm) e2
            rw [← taken_append, n1, n2, n3, n4, n5]
            exact e3
          have hE : (ledger c1.log).entries = (ledger c0.log).done ++ [⟨c0.request, d, some ⟨e, st, hs, taken l0 ++ taken l1 ++ ct⟩⟩] := by
            rw [hled]
            unfold Ledger.entries
            rw [htaken, hdone]
            rfl
          refine ⟨⟨by rw [hE]; exact h11.snoc hf1 hexp, ?_⟩, ?_, by rw [hled], ?_⟩
          · rw [hE, List.length_append, List.length_singleton, take_one_more hf1, h12, ← hf2, hinc]
          · rw [k1]; exact connects_finished k2 k3
          · rw [hE, hent, pairs_append, pairs_append]; rfl
        obtain ⟨l₁, ct₁, l₂, e1, e2, -⟩ := reports_content hrep q4
        generalize c.step env fuel i = c' at *
        have hnofin : ∀ k, c'.log = c.log ++ k → (∀ e st hs ct, .finished e st hs ct ∉ k) → False := by
          intro k hk1 hk2
          rw [hk1, hl0, List.append_assoc, List.append_assoc] at e1
          have e1 := List.append_cancel_left e1
          have : CEv.finished .noError (num m.head.status) m.head.shown ct₁ ∈ l0 ++ k := by rw [e1]; exact List.mem_append_right _ (by simp)
          rcases List.mem_append.1 this with h | h
          · exact minors_no_finished hm0 h
          · exact hk2 _ _ _ _ h
        cases hturn with
        | stays l k1 k2 k3 k4 => exact (hnofin l k1 fun _ _ _ _ => minors_no_finished k2).elim
        | ends l1 e st hs ct l2 k1 k2 k3 k4 k5 k6 =>
          obtain ⟨⟨g1, g2⟩, g3, g4, g5⟩ := hans c' k2 k3 k4 (List.prefix_refl _)
          exact ⟨.same g3 g4 (by rw [g5]; exact List.prefix_refl _) (.idle k5 hfresh g1 g2), k6⟩
        | renews l1 e st hs ct l2 r c1 k1 k2 k3 k4 k5 =>
          have hpre : c1.log <+: c'.log := by
            rcases k5.shape with ⟨p, d, e1, -⟩ | ⟨k, host, port, -, ⟨e1, -⟩ | ⟨p, d, e1, -⟩⟩ <;> rw [e1] <;> (try simp only [List.append_assoc]) <;> exact List.prefix_append _ _
          obtain ⟨⟨g1, g2⟩, g3, g4, g5⟩ := hans c1 k2 k3 k4 hpre
          exact ⟨(open_advance k5 ht' hfresh hw' g1 g2).of g3 g4 g5, k5.scripts⟩
        | starts l r c1 k1 k2 k3 k4 => rw [h7] at k3; cases k3
        | writes p d k1 k2 k3 k4 k5 k6 k7 => rw [h8] at k2; cases k2
        | fails l1 e st hs ct l2 k1 k2 k3 k4 =>
          exfalso
          rw [k2, hl0, List.append_assoc c0.log] at e1
          have := (first_finished e1 (fun e st hs ct hm => by
              rcases List.mem_append.1 hm with hm | hm
              · exact minors_no_finished hm0 hm
              · exact minors_no_finished k3 hm) e2).2.1
          exact k4 this
      · exact stay (by rw [hrun]; exact hu)

end Pillow.Props.Pair

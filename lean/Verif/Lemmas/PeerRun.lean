import Verif.Lemmas.PeerTransfer

/-! What a connection does (C49, C50, C86-C90). -/
namespace Ngfs.Torrent
open Binary Spec Spec.Torrent Util

/-! ### Invariants of the receive loop -/

theorem handle_requestLoop (s : Transfer) (c : Conn) :
    handleMessage s c .unchoke = .ok ((requestLoop 102 s).1, (requestLoop 102 s).2, c) := rfl

theorem handle_piece (s : Transfer) (c : Conn) (i b : Nat) (d : Bytes) :
    handleMessage s c (.piece i b d) = .ok ((requestLoop 102 (s.completeRequest i b d)).1, (requestLoop 102 (s.completeRequest i b d)).2, c) := rfl

/-- Every message but two leaves the transfer alone. -/
theorem handle_cases {s s' : Transfer} {c c' : Conn} {m : Message} {o : Bytes} (h : handleMessage s c m = .ok (o, s', c')) :
    (m = .unchoke ∧ o = (requestLoop 102 s).1 ∧ s' = (requestLoop 102 s).2) ∨
    (∃ i b d, m = .piece i b d ∧ o = (requestLoop 102 (s.completeRequest i b d)).1 ∧ s' = (requestLoop 102 (s.completeRequest i b d)).2) ∨
    (m ≠ .unchoke ∧ (∀ i b d, m ≠ .piece i b d) ∧ s' = s ∧ (o = [] ∨ o = queueUnchoke ++ queueInterested)) := by
  cases m
  case unchoke =>
    rw [handle_requestLoop] at h
    simp only [Except.ok.injEq, Prod.mk.injEq] at h
    exact .inl ⟨rfl, h.1.symm, h.2.1.symm⟩
  case piece i b d =>
    rw [handle_piece] at h
    simp only [Except.ok.injEq, Prod.mk.injEq] at h
    exact .inr (.inl ⟨i, b, d, rfl, h.1.symm, h.2.1.symm⟩)
  case bitField data =>
    right; right
    simp only [handleMessage] at h
    split at h
    · simp at h
    · split at h
      · simp at h
      · simp only [Except.ok.injEq, Prod.mk.injEq] at h
        exact ⟨by simp, by simp, h.2.1.symm, .inr h.1.symm⟩
  all_goals
    right; right
    simp only [handleMessage, Except.ok.injEq, Prod.mk.injEq] at h
    exact ⟨by simp, by simp, h.2.1.symm, .inl h.1.symm⟩

theorem handle_failed {s : Transfer} {c : Conn} {m : Message} (hf : c.receivedFirstMessage = false) (h : handleMessage s c m = .error ()) :
    BadBitField s.torrent m := by
  cases m
  case bitField data =>
    simp only [handleMessage, hf] at h
    split at h
    · simp at *
    · split at h
      · assumption
      · simp at h
  all_goals simp [handleMessage] at h

theorem handle_not_bad {s : Transfer} {c : Conn} {m : Message} (hf : c.receivedFirstMessage = false) (h : ¬ BadBitField s.torrent m) :
    ∃ x, handleMessage s c m = .ok x := by
  rcases hm : handleMessage s c m with ⟨⟩ | x
  · exact (h (handle_failed hf hm)).elim
  · exact ⟨x, rfl⟩

/-- What holds at the start and is kept by every message holds at the end. -/
theorem loop_inv {P : Transfer → Bytes → List Message → Prop}
    (hok : ∀ s c sent ms m o s' c', P s sent ms → handleMessage s c m = .ok (o, s', c') → P s' (sent ++ o) (ms ++ [m]))
    (hfail : ∀ s c sent ms m, P s sent ms → handleMessage s c m = .error () → P s sent (ms ++ [m])) (broken : Bool) :
    ∀ (n : Nat) (chunks : List Bytes) (s : Transfer) (c : Conn) (sent : Bytes) (ms : List Message), P s sent ms →
    P (peerLoop broken n chunks s c sent ms).transfer (peerLoop broken n chunks s c sent ms).sent
      (peerLoop broken n chunks s c sent ms).received := by
  intro n
  induction n with
  | zero => intro chunks s c sent ms h; exact h
  | succ n ih =>
    intro chunks s c sent ms h
    rw [peerLoop]
    rcases getNextMessage c with ⟨_ | m | e, c'⟩
    · rcases chunks with _ | ⟨ch, chunks⟩
      · exact h
      · simp only
        split
        · exact h
        · exact ih _ _ _ _ _ h
    · simp only
      rcases hm : handleMessage s c' m with ⟨⟩ | ⟨o, s', c2⟩
      · exact hfail _ _ _ _ _ h hm
      · exact ih _ _ _ _ _ (hok _ _ _ _ _ _ _ _ h hm)
    · cases e <;> exact h

theorem doPeer_inv {P : Transfer → Bytes → List Message → Prop}
    (hok : ∀ s c sent ms m o s' c', P s sent ms → handleMessage s c m = .ok (o, s', c') → P s' (sent ++ o) (ms ++ [m]))
    (hfail : ∀ s c sent ms m, P s sent ms → handleMessage s c m = .error () → P s sent (ms ++ [m]))
    (s : Transfer) (peerId : Bytes) (broken : Bool) (chunks : List Bytes) (h : P s (encodeHandshake s.torrent.infoHash peerId) []) :
    P (doPeer s peerId broken chunks).transfer (doPeer s peerId broken chunks).sent (doPeer s peerId broken chunks).received :=
  loop_inv hok hfail broken _ _ _ _ _ _ h

/-- The transfer is changed by starting and completing requests. -/
theorem handle_run {s s' : Transfer} {c c' : Conn} {m : Message} {o : Bytes} (h : handleMessage s c m = .ok (o, s', c')) :
    ∃ ops, s' = run s ops := by
  rcases handle_cases h with ⟨-, -, rfl⟩ | ⟨i, b, d, -, -, rfl⟩ | ⟨-, -, rfl, -⟩
  · obtain ⟨k, hk⟩ := requestLoop_run 102 s
    exact ⟨_, hk⟩
  · obtain ⟨k, hk⟩ := requestLoop_run 102 (s.completeRequest i b d)
    exact ⟨.complete i b d :: List.replicate k .start, by rw [hk]; rfl⟩
  · exact ⟨[], rfl⟩

theorem doPeer_run (s : Transfer) (peerId : Bytes) (broken : Bool) (chunks : List Bytes) :
    ∃ ops, (doPeer s peerId broken chunks).transfer = run s ops := by
  refine doPeer_inv (P := fun s' _ _ => ∃ ops, s' = run s ops) ?_ ?_ s peerId broken chunks ⟨[], rfl⟩
  · rintro s1 c sent ms m o s' c' ⟨ops, rfl⟩ h
    obtain ⟨ops', rfl⟩ := handle_run h
    exact ⟨ops ++ ops', (run_append _ _ _).symm⟩
  · rintro s1 c sent ms m h -
    exact h

theorem complete_active (s : Transfer) (i b : Nat) (d : Bytes) :
    (s.completeRequest i b d).active.length ≤ s.active.length ∧ (s.completeRequest i b d).pending = s.pending := by
  unfold Transfer.completeRequest
  split
  · exact ⟨Nat.le_refl _, rfl⟩
  · exact ⟨List.length_eraseIdx_le _ _, rfl⟩

theorem requestLoop_active (s : Transfer) (h : s.active.length ≤ 101) :
    (requestLoop 102 s).2.active.length ≤ 101 ∧ ((requestLoop 102 s).2.active = [] → (requestLoop 102 s).2.pending = []) := by
  rw [requestLoop_eq 102 s (by omega)]
  simp only [List.length_append, List.length_take]
  refine ⟨by omega, fun h => ?_⟩
  obtain ⟨h1, h2⟩ := List.append_eq_nil_iff.mp h
  rw [h1] at h2 ⊢
  rcases hp : s.pending with _ | ⟨r, rest⟩
  · simp
  · rw [hp] at h2; simp at h2

/-! ### What is sent -/

theorem forall₂_append {α β : Type} {R : α → β → Prop} {a c : List α} {b d : List β} (h : List.Forall₂ R a b) (h' : List.Forall₂ R c d) :
    List.Forall₂ R (a ++ c) (b ++ d) := by
  induction h with
  | nil => exact h'
  | cons h _ ih => exact .cons h ih

theorem wire_queue {m : Message} {body : Bytes} (hb : Body m body) (hl : body.length < 2 ^ 32) : Wire m (queueMsg body) :=
  .body (field_beBytes (by norm_num; omega)) hb

theorem wire_request {r : Request} (h : Fits r) : Wire (.request r) (queueRequest r) := by
  obtain ⟨h1, h2, h3⟩ := h
  refine wire_queue ?_ (by simp)
  have := Body.request (field_beBytes (w := 4) (n := r.index) (by norm_num; omega)) (field_beBytes (w := 4) (n := r.start) (by norm_num; omega))
    (field_beBytes (w := 4) (n := r.length) (by norm_num; omega))
  simpa using this

theorem requestsOf_append (a b : List Message) : requestsOf (a ++ b) = requestsOf a ++ requestsOf b := List.filterMap_append ..

theorem requestsOf_map (rs : List Request) : requestsOf (rs.map .request) = rs := by
  induction rs with
  | nil => rfl
  | cons r rs ih => simpa [requestsOf] using ih

theorem flatMap_wire : ∀ (rs : List Request), (∀ r ∈ rs, Fits r) →
    List.Forall₂ Wire (rs.map .request) (rs.map queueRequest) := by
  intro rs
  induction rs with
  | nil => intro _; exact .nil
  | cons r rs ih => intro h; exact .cons (wire_request (h r (by simp))) (ih fun x hx => h x (by simp [hx]))

/-- What `requestLoop` sends. -/
theorem requestLoop_sent (s : Transfer) (hf : ∀ r ∈ s.pending, Fits r) : ∃ outs ws k, (requestLoop 102 s).1 = ws.flatten ∧
    List.Forall₂ Wire outs ws ∧ (∀ m ∈ outs, Sendable m) ∧ requestsOf outs = s.pending.take k ∧
    (requestLoop 102 s).2.pending = s.pending.drop k := by
  rw [requestLoop_eq 102 s (by omega)]
  generalize 101 - s.active.length = k
  have hf' : ∀ r ∈ s.pending.take k, Fits r := fun r hr => hf r (List.mem_of_mem_take hr)
  by_cases hn : s.pending.length < k
  · refine ⟨(s.pending.take k).map .request ++ [.notInterested], (s.pending.take k).map queueRequest ++ [queueNotInterested], k, ?_,
      forall₂_append (flatMap_wire _ hf') (.cons (wire_queue .notInterested (by decide)) .nil), ?_, ?_, rfl⟩
    · simp [hn, List.flatMap]
    · intro m hm
      rcases List.mem_append.mp hm with hm | hm
      · obtain ⟨r, -, rfl⟩ := List.mem_map.mp hm; trivial
      · rw [List.mem_singleton] at hm; subst hm; trivial
    · rw [requestsOf_append, requestsOf_map]; simp [requestsOf]
  · refine ⟨(s.pending.take k).map .request, (s.pending.take k).map queueRequest, k, ?_, flatMap_wire _ hf', ?_, requestsOf_map _, rfl⟩
    · simp [hn, List.flatMap]
    · intro m hm
      obtain ⟨r, -, rfl⟩ := List.mem_map.mp hm; trivial

/-- What has been sent, and what is left to be sent. -/
def SentInv (s0 : Transfer) (hs : Bytes) (s : Transfer) (sent : Bytes) : Prop :=
  ∃ outs ws k, sent = hs ++ ws.flatten ∧ List.Forall₂ Wire outs ws ∧ (∀ m ∈ outs, Sendable m) ∧ requestsOf outs = s0.pending.take k ∧
    s.pending = s0.pending.drop k

theorem take_append_take {α : Type} (l : List α) (a b : Nat) : l.take a ++ (l.drop a).take b = l.take (a + b) := (List.take_add ..).symm

theorem sentInv_step {s0 s s' : Transfer} {hs sent o : Bytes} {c c' : Conn} {m : Message} (hf : ∀ r ∈ s0.pending, Fits r)
    (hi : SentInv s0 hs s sent) (h : handleMessage s c m = .ok (o, s', c')) : SentInv s0 hs s' (sent ++ o) := by
  obtain ⟨outs, ws, k, h1, h2, h3, h4, h5⟩ := hi
  have step : ∀ s1 : Transfer, s1.pending = s.pending → SentInv s0 hs (requestLoop 102 s1).2 (sent ++ (requestLoop 102 s1).1) := by
    intro s1 hs1
    have hf1 : ∀ r ∈ s1.pending, Fits r := by
      intro r hr; rw [hs1, h5] at hr; exact hf r (List.mem_of_mem_drop hr)
    obtain ⟨outs', ws', k', g1, g2, g3, g4, g5⟩ := requestLoop_sent s1 hf1
    refine ⟨outs ++ outs', ws ++ ws', k + k', ?_, forall₂_append h2 g2, ?_, ?_, ?_⟩
    · rw [h1, g1, List.flatten_append, List.append_assoc]
    · intro m hm
      rcases List.mem_append.mp hm with hm | hm
      · exact h3 m hm
      · exact g3 m hm
    · rw [requestsOf_append, h4, g4, hs1, h5, take_append_take]
    · rw [g5, hs1, h5, List.drop_drop]
  rcases handle_cases h with ⟨-, rfl, rfl⟩ | ⟨i, b, d, -, rfl, rfl⟩ | ⟨-, -, rfl, rfl | rfl⟩
  · exact step s rfl
  · exact step _ (complete_active s i b d).2
  · exact ⟨outs, ws, k, by rw [List.append_nil]; exact h1, h2, h3, h4, h5⟩
  · refine ⟨outs ++ [.unchoke, .interested], ws ++ [queueUnchoke, queueInterested], k, ?_,
      forall₂_append h2 (.cons (wire_queue .unchoke (by decide)) (.cons (wire_queue .interested (by decide)) .nil)), ?_, ?_, h5⟩
    · rw [h1]; simp
    · intro m hm
      rcases List.mem_append.mp hm with hm | hm
      · exact h3 m hm
      · simp only [List.mem_cons, List.not_mem_nil, or_false] at hm
        rcases hm with rfl | rfl <;> trivial
    · rw [requestsOf_append, h4]; simp [requestsOf]

/-! ### What is received -/

theorem not_incomplete {m : Message} {bs rest : Bytes} (h : Wire m bs) : ¬ Incomplete (bs ++ rest) := by
  cases h with
  | keepAlive =>
    rintro (h | h)
    · simp at h; omega
    · have : bigEndian (([0, 0, 0, 0] ++ rest : Bytes).take 4) = 0 := rfl
      rw [this] at h; simp at h; omega
  | @body m len body hf hb =>
    obtain ⟨h1, h2⟩ := hf
    have t4 : (len ++ body ++ rest).take 4 = len := by
      rw [List.append_assoc, List.take_append_of_le_length (by omega), List.take_of_length_le (by omega)]
    rintro (h | h)
    · simp only [List.length_append] at h; omega
    · rw [t4, h2] at h; simp only [List.length_append] at h; omega

theorem not_incomplete_frame {len body rest : Bytes} (h : Field 4 body.length len) : ¬ Incomplete (len ++ body ++ rest) := by
  obtain ⟨h1, h2⟩ := h
  have t4 : (len ++ body ++ rest).take 4 = len := by
    rw [List.append_assoc, List.take_append_of_le_length (by omega), List.take_of_length_le (by omega)]
  rintro (h | h)
  · simp only [List.length_append] at h; omega
  · rw [t4, h2] at h; simp only [List.length_append] at h; omega

theorem handle_torrent {s s' : Transfer} {c c' : Conn} {m : Message} {o : Bytes} (h : handleMessage s c m = .ok (o, s', c')) :
    s'.torrent = s.torrent := by
  obtain ⟨ops, rfl⟩ := handle_run h
  exact (run_perm ops s).2

/-- Behind the handshake, with all bytes at hand. -/
theorem loop_sound (t : Torrent) (broken : Bool) : ∀ (n : Nat) (s : Transfer) (c : Conn) (sent : Bytes) (ms : List Message),
    c.receivedHandshake = true → c.receivedFirstMessage = false → s.torrent = t → ms ≠ [] → c.incoming.length + 1 ≤ n →
    ∃ ms' ws rest, (peerLoop broken n [] s c sent ms).received = ms ++ ms' ∧ c.incoming = ws.flatten ++ rest ∧ List.Forall₂ Wire ms' ws ∧
      (∀ m ∈ ms', Supported m) ∧ Ended t broken (ms ++ ms') rest (peerLoop broken n [] s c sent ms).outcome := by
  intro n
  induction n with
  | zero => intros; omega
  | succ n ih =>
    intro s c sent ms hh hf ht hne hn
    have hne' : ∀ x, ms ++ x ≠ [] := fun x h => hne (List.append_eq_nil_iff.mp h).1
    rw [peerLoop]
    rcases next_cases hh with ⟨m, bs, rest, h1, hi, hw, hs, hl⟩ | ⟨h1, h2⟩ | ⟨e, len, id, body, rest, h1, hi, hfl, hp, hns⟩
    · simp only [h1]
      rcases hm : handleMessage s { c with incoming := rest } m with ⟨⟩ | ⟨o, s', c'⟩
      · refine ⟨[m], [bs], rest, rfl, by simpa using hi, .cons hw .nil, by simpa using hs, ?_⟩
        exact ⟨m, by simp, by rw [← ht]; exact handle_failed (by exact hf) hm⟩
      · obtain ⟨e1, e2, e3⟩ := handle_conn hm
        simp only at e1 e2 e3
        obtain ⟨ms', ws, rest', g1, g2, g3, g4, g5⟩ := ih s' c' (sent ++ o) (ms ++ [m]) (by rw [e2, hh]) (by rw [e3, hf])
          (by rw [handle_torrent hm, ht]) (hne' _) (by rw [e1]; rw [hi, List.length_append] at hn; omega)
        refine ⟨m :: ms', bs :: ws, rest', by simp [g1], ?_, .cons hw g3, ?_, ?_⟩
        · rw [hi, ← e1, g2]; simp
        · intro x hx
          rcases List.mem_cons.mp hx with rfl | hx
          · exact hs
          · exact g4 x hx
        · simpa using g5
    · simp only [h1]
      refine ⟨[], [], c.incoming, by simp, by simp, .nil, by simp, ?_⟩
      cases broken <;> simp [Ended, hne, h2]
    · rcases hg : getNextMessage c with ⟨a, c'⟩
      rw [hg] at h1
      simp only at h1
      subst h1
      cases e
      case panic =>
        refine ⟨[], [], c.incoming, by simp, by simp, .nil, by simp, by simpa using hne, len, id :: body, rest, hi, hfl, by simp, ?_⟩
        exact hp.mp rfl
      all_goals
        refine ⟨[], [], c.incoming, by simp, by simp, .nil, by simp, ?_⟩
        simp only [Ended, List.append_nil, if_neg hne]
        exact ⟨len, id :: body, rest, hi, hfl, by simp, fun h => by simpa using hp.mpr h, hns⟩

/-- The messages handled one after the other. -/
def handleAll : Transfer → Conn → List Message → Except Unit (Bytes × Transfer × Conn)
  | s, c, [] => .ok ([], s, c)
  | s, c, m :: ms =>
    match handleMessage s c m with
    | .error () => .error ()
    | .ok (o, s, c) => (handleAll s c ms).map fun (o', s, c) => (o ++ o', s, c)

theorem loop_complete (broken : Bool) : ∀ (ms : List Message) (ws : List Bytes) (n : Nat) (s s' : Transfer) (c c' : Conn) (sent out rest : Bytes)
    (ms0 : List Message), List.Forall₂ Wire ms ws → (∀ m ∈ ms, Supported m) → c.receivedHandshake = true → c.incoming = ws.flatten ++ rest →
    handleAll s c ms = .ok (out, s', c') → c.incoming.length + 1 ≤ n →
    ∃ n' c2, peerLoop broken n [] s c sent ms0 = peerLoop broken n' [] s' c2 (sent ++ out) (ms0 ++ ms) ∧ c2.incoming = rest ∧
      c2.receivedHandshake = true ∧ c2.receivedFirstMessage = c.receivedFirstMessage ∧ rest.length + 1 ≤ n' := by
  intro ms
  induction ms with
  | nil =>
    intro ws n s s' c c' sent out rest ms0 hw hsup hh hi hall hn
    cases hw
    simp only [handleAll, Except.ok.injEq, Prod.mk.injEq] at hall
    obtain ⟨rfl, rfl, rfl⟩ := hall
    simp only [List.flatten_nil, List.nil_append] at hi
    exact ⟨n, c, by simp, hi, hh, rfl, by rw [← hi]; exact hn⟩
  | cons m ms ih =>
    intro ws n s s' c c' sent out rest ms0 hw hsup hh hi hall hn
    cases hw with
    | @cons _ w _ ws hw hws =>
      obtain ⟨n, rfl⟩ : ∃ k, n = k + 1 := ⟨n - 1, by omega⟩
      have hi' : c.incoming = w ++ (ws.flatten ++ rest) := by rw [hi]; simp
      have hnx := next_message hh hi' hw (hsup m (by simp))
      rw [handleAll] at hall
      rcases hm : handleMessage s c m with ⟨⟩ | ⟨o, s1, c1⟩
      · rw [hm] at hall; simp at hall
      · rw [hm] at hall
        simp only at hall
        rcases hrest : handleAll s1 c1 ms with ⟨⟩ | ⟨o', s2, c2⟩
        · rw [hrest] at hall; simp [Except.map] at hall
        · rw [hrest] at hall
          simp only [Except.map, Except.ok.injEq, Prod.mk.injEq] at hall
          obtain ⟨rfl, rfl, rfl⟩ := hall
          -- the connection that goes on has fewer bytes
          have hm2 := handle_incoming s c m (ws.flatten ++ rest)
          rw [hm] at hm2
          simp only [Except.map] at hm2
          have hall2 : ∀ (ms : List Message) (s : Transfer) (c : Conn) (x : Bytes),
              handleAll s { c with incoming := x } ms = (handleAll s c ms).map fun (o, s', c') => (o, s', { c' with incoming := x }) := by
            intro ms
            induction ms with
            | nil => intro s c x; rfl
            | cons m ms ih =>
              intro s c x
              rw [handleAll, handleAll, handle_incoming]
              rcases handleMessage s c m with ⟨⟩ | ⟨o, s1, c1⟩
              · rfl
              · simp only [Except.map]
                rw [ih]
                rcases handleAll s1 c1 ms with ⟨⟩ | ⟨o', s2, c2⟩ <;> rfl
          obtain ⟨e1, e2, e3⟩ := handle_conn hm
          have hr2 := hall2 ms s1 c1 (ws.flatten ++ rest)
          rw [hrest] at hr2
          simp only [Except.map] at hr2
          have hwl : 4 ≤ w.length := by
            cases hw with
            | keepAlive => simp
            | body hf hb => rw [List.length_append, hf.1]; omega
          obtain ⟨n', c3, g1, g2, g3, g4, g5⟩ := ih ws n s1 s2 { c1 with incoming := ws.flatten ++ rest } _ (sent ++ o) o' rest (ms0 ++ [m]) hws
            (fun x hx => hsup x (by simp [hx])) (by simp only; rw [e2, hh]) rfl hr2 (by simp only; rw [hi', List.length_append] at hn; omega)
          refine ⟨n', c3, ?_, g2, g3, by rw [g4]; exact e3, g5⟩
          rw [peerLoop, hnx]
          simp only [hm2]
          rw [g1]
          simp

theorem handleAll_ok {t : Torrent} : ∀ (ms : List Message) (s : Transfer) (c : Conn), c.receivedFirstMessage = false → s.torrent = t →
    (∀ m ∈ ms, ¬ BadBitField t m) → ∃ out s' c', handleAll s c ms = .ok (out, s', c') := by
  intro ms
  induction ms with
  | nil => intro s c _ _ _; exact ⟨_, _, _, rfl⟩
  | cons m ms ih =>
    intro s c hf ht hb
    obtain ⟨⟨o, s1, c1⟩, hm⟩ := handle_not_bad (s := s) (c := c) (m := m) hf (by rw [ht]; exact hb m (by simp))
    obtain ⟨e1, e2, e3⟩ := handle_conn hm
    obtain ⟨o', s2, c2, h2⟩ := ih s1 c1 (by rw [e3, hf]) (by rw [handle_torrent hm, ht]) (fun x hx => hb x (by simp [hx]))
    exact ⟨o ++ o', s2, c2, by rw [handleAll, hm]; simp only [h2, Except.map]⟩

theorem loop_prefix (broken : Bool) (n : Nat) (chunks : List Bytes) (s : Transfer) (c : Conn) (sent : Bytes) (ms : List Message) :
    ms <+: (peerLoop broken n chunks s c sent ms).received := by
  refine loop_inv (P := fun _ _ ms' => ms <+: ms') ?_ ?_ broken n chunks s c sent ms (List.prefix_refl _)
  · intro s c sent ms1 m o s' c' h _
    exact h.trans (List.prefix_append _ _)
  · intro s c sent ms1 m h _
    exact h.trans (List.prefix_append _ _)

/-- With all bytes at hand. -/
theorem doPeer_chunks (s : Transfer) (peerId : Bytes) (broken : Bool) (chunks : List Bytes) (h : ∀ ch ∈ chunks, ch ≠ []) :
    doPeer s peerId broken chunks = peerLoop broken (chunks.flatten.length + 1) [] s { Conn.new s.torrent.pieces.length with incoming := chunks.flatten }
      (encodeHandshake s.torrent.infoHash peerId) [] := by
  rw [doPeer, loop_chunks broken _ (chunks.flatten.length + 1) chunks s _ _ _ h (by simp [Conn.new]) (by simp [Conn.new])]
  simp [Conn.new]

/-- The first step, when the handshake is there. -/
theorem loop_handshake (broken : Bool) (n : Nat) (s : Transfer) (k : Nat) (reserved infoHash peerId bs rest sent : Bytes)
    (hw : HandshakeWire reserved infoHash peerId bs) :
    peerLoop broken (n + 1) [] s { Conn.new k with incoming := bs ++ rest } sent [] =
      peerLoop broken n [] s { Conn.new k with incoming := rest, receivedHandshake := true } sent [.handshake reserved infoHash peerId] := by
  obtain ⟨c, hc⟩ : ∃ c : Conn, c = { Conn.new k with incoming := bs ++ rest } := ⟨_, rfl⟩
  have hh : c.receivedHandshake = false := by rw [hc]; rfl
  have hi : c.incoming = bs ++ rest := by rw [hc]
  obtain ⟨l1, l2, l3, hb⟩ := hw
  have hbl : bs.length = 68 := by
    have h0 : (19 :: utf8Encode "BitTorrent protocol").length = 20 := by rw [← protocolName_eq]; rfl
    rw [hb, List.length_cons, List.length_append, List.length_append, List.length_append]
    rw [List.length_cons] at h0
    omega
  rw [← hc, peerLoop]
  rcases next_handshake hh with ⟨g, -⟩ | ⟨-, -, g⟩ | ⟨r', i', p', bs', rest', hw', hi', hl', g⟩
  · rw [hi, List.length_append] at g; omega
  · exact (g ⟨reserved, infoHash, peerId, bs, rest, ⟨l1, l2, l3, hb⟩, hi⟩).elim
  · obtain ⟨he1, he2⟩ : bs = bs' ∧ rest = rest' := List.append_inj (hi.symm.trans hi') (by omega)
    obtain ⟨l1', l2', l3', hb'⟩ := hw'
    rw [he1, hb'] at hb
    simp only [List.cons.injEq, true_and] at hb
    obtain ⟨ha, hp⟩ := List.append_inj' hb (by omega)
    obtain ⟨ha, hi2⟩ := List.append_inj' ha (by omega)
    obtain ⟨-, hr⟩ := List.append_inj' ha (by omega)
    rw [g, hp, hi2, hr, hc, ← he2]
    simp only [handleMessage, List.append_nil, List.nil_append]

end Ngfs.Torrent

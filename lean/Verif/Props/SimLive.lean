import Verif.Props.Sim

/-! C192, C193: the simulated transfer comes to an end; when something can happen next. -/
namespace Ngfs.Sim
open Spec.Sim

/-- The turns of the program's loop up to time `n` (`bin/netsim.rs` 246-250): at each time the producer and then the consumer. -/
def schedule : Nat → List Turn
  | 0 => []
  | n + 1 => schedule n ++ [.producer n, .consumer n]

/-- Again and again, four sends in a row are not lost. -/
def Passable (luck : Nat → Luck) : Prop := ∀ n, ∃ m ≥ n, ∀ d, m ≤ d → d < m + 4 → (luck d).first.lost = false

/-- C192: if again and again four packets in a row are not lost, a time comes from which on the receiver has everything, in order, and the sender
knows it. -/
def C192_statement : Prop :=
  ∀ (luck : Nat → Luck) (p : Params) (count : Nat), Passable luck →
    ∃ n, ∀ ts, ((World.init p count).run luck (schedule n ++ ts)).consumer.delivered = sequence count ∧
      ((World.init p count).run luck (schedule n ++ ts)).producer.ack = count

theorem send_copies {M : Type} (c : Channel M) (m : M) (l : Luck) : ∃ new, (c.send m l).messages = c.messages ++ new ∧
    (∀ x ∈ new, x.message = m) ∧ new.length ≤ 2 ∧ (l.first.lost = false → 0 < new.length) ∧ (c.send m l).params = c.params ∧
    (c.send m l).nextSendTime = c.nextSendTime + c.params.invBandwidth := by
  obtain ⟨dup, ⟨e1, l1, p1⟩, ⟨e2, l2, p2⟩⟩ := l
  cases dup <;> cases l1 <;> cases l2 <;>
    simp [Channel.send, Channel.sendCopies]

theorem receive_acks (luck : Nat → Luck) (n : Nat) : ∀ s : Side, s.inn.messages.length = n → (∀ x ∈ s.inn.messages, ∃ a, x.message = .ack a) →
    (s.receive luck n).inn.messages = [] ∧ (s.receive luck n).out = s.out ∧ (s.receive luck n).draws = s.draws ∧
    (s.receive luck n).peer.seq = s.peer.seq ∧ (s.receive luck n).peer.count = s.peer.count ∧
    (∀ x ∈ s.inn.messages, ∀ a, x.message = .ack a → a ≤ (s.receive luck n).peer.ack) ∧
    ((s.receive luck n).peer = s.peer ∨ s.peer.ack < (s.receive luck n).peer.ack ∧ (s.receive luck n).peer.retransmitTime = none) := by
  induction n with
  | zero =>
    intro s hn _
    have he := List.length_eq_zero_iff.mp hn
    exact ⟨he, rfl, rfl, rfl, rfl, by simp [he], .inl rfl⟩
  | succ n ih =>
    intro s hn ha
    obtain ⟨mit, hr⟩ := recv_isSome (c := s.inn) (by intro h; simp [h] at hn)
    obtain ⟨pre, post, h1, h2, -⟩ := recv_some hr
    unfold Side.receive
    generalize s.inn.recv = R at hr h2
    obtain ⟨x, inn'⟩ := R
    simp only at hr h2
    subst hr
    subst h2
    simp only
    obtain ⟨a, hm⟩ := ha mit (by rw [h1]; simp)
    have key : ∀ s1 : Side, s1 = Side.handle luck { s with inn := { s.inn with messages := pre ++ post } } mit.message →
        s1.inn.messages = pre ++ post ∧ s1.out = s.out ∧ s1.draws = s.draws ∧ s1.peer.seq = s.peer.seq ∧ s1.peer.count = s.peer.count ∧
        a ≤ s1.peer.ack ∧ (s1.peer = s.peer ∨ s.peer.ack < s1.peer.ack ∧ s1.peer.retransmitTime = none) := by
      intro s1 hs
      rw [hm] at hs
      simp only [Side.handle] at hs
      split at hs
      · subst hs
        exact ⟨rfl, rfl, rfl, rfl, rfl, Nat.le_refl _, .inr ⟨by assumption, rfl⟩⟩
      · subst hs
        exact ⟨rfl, rfl, rfl, rfl, rfl, by simp only; omega, .inl rfl⟩
    generalize Side.handle luck { s with inn := { s.inn with messages := pre ++ post } } mit.message = s1 at key
    obtain ⟨k1, k2, k3, k4, k5, k6, k7⟩ := key s1 rfl
    obtain ⟨i1, i2, i3, i4, i5, i6, i7⟩ := ih s1 (by rw [k1]; rw [h1] at hn; simp at hn ⊢; omega)
      (by rw [k1]; intro x hx; exact ha x (by rw [h1]; simp at hx ⊢; tauto))
    have hle : s1.peer.ack ≤ (s1.receive luck n).peer.ack := by
      rcases i7 with i7 | i7
      · exact Nat.le_of_eq (by rw [i7])
      · omega
    refine ⟨i1, i2.trans k2, i3.trans k3, i4.trans k4, i5.trans k5, ?_, ?_⟩
    · intro x hx b hb
      rw [h1] at hx
      rcases List.mem_append.mp hx with hx | hx
      · exact i6 x (by rw [k1]; simp [hx]) b hb
      · rcases List.mem_cons.mp hx with rfl | hx
        · rw [hm] at hb
          cases hb
          omega
        · exact i6 x (by rw [k1]; simp [hx]) b hb
    · rcases k7 with k7 | k7
      · rw [← k7]; exact i7
      · rcases i7 with i7 | i7
        · exact .inr ⟨by omega, by rw [i7]; exact k7.2⟩
        · exact .inr ⟨by omega, i7.2⟩

theorem receive_data (luck : Nat → Luck) (k : Nat) (text : String) (n : Nat) : ∀ s : Side, s.inn.messages.length = n →
    (∀ x ∈ s.inn.messages, x.message = .data k text) → k ≤ s.peer.ack → s.peer.ack ≤ k + 1 →
    (s.receive luck n).inn.messages = [] ∧ (s.receive luck n).draws = s.draws + n ∧ (s.receive luck n).inn.params = s.inn.params ∧
    (s.receive luck n).inn.nextSendTime = s.inn.nextSendTime ∧
    (s.receive luck n).peer.ack ≤ k + 1 ∧ (∀ x ∈ s.out.messages, x ∈ (s.receive luck n).out.messages) ∧
    (0 < n → (luck s.draws).first.lost = false → ∃ x ∈ (s.receive luck n).out.messages, x.message = .ack (k + 1)) := by
  induction n with
  | zero =>
    intro s hn _ _ h
    exact ⟨List.length_eq_zero_iff.mp hn, rfl, rfl, rfl, h, fun x hx => hx, by simp⟩
  | succ n ih =>
    intro s hn ha hk hk'
    obtain ⟨mit, hr⟩ := recv_isSome (c := s.inn) (by intro h; simp [h] at hn)
    obtain ⟨pre, post, h1, h2, -⟩ := recv_some hr
    unfold Side.receive
    generalize s.inn.recv = R at hr h2
    obtain ⟨x, inn'⟩ := R
    simp only at hr h2
    subst hr
    subst h2
    simp only
    have hm := ha mit (by rw [h1]; simp)
    have key : ∀ s1 : Side, s1 = Side.handle luck { s with inn := { s.inn with messages := pre ++ post } } mit.message →
        s1.inn = { s.inn with messages := pre ++ post } ∧ s1.draws = s.draws + 1 ∧ s1.peer.ack = k + 1 ∧
        s1.out = s.out.send (.ack (k + 1)) (luck s.draws) := by
      intro s1 hs
      rw [hm] at hs
      simp only [Side.handle] at hs
      rw [if_neg (by omega)] at hs
      split at hs
      · subst hs
        exact ⟨rfl, rfl, rfl, rfl⟩
      · have he : s.peer.ack = k + 1 := by rename_i h; omega
        subst hs
        exact ⟨rfl, rfl, he, by simp only [Side.send, he]⟩
    generalize Side.handle luck { s with inn := { s.inn with messages := pre ++ post } } mit.message = s1 at key
    obtain ⟨k1, k2, k3, k4⟩ := key s1 rfl
    obtain ⟨i1, i2, i3, i4, i5, i6, i7⟩ := ih s1 (by rw [k1]; rw [h1] at hn; simp at hn ⊢; omega)
      (by rw [k1]; intro x hx; exact ha x (by rw [h1]; simp at hx ⊢; tauto)) (by omega) (by omega)
    obtain ⟨new, s1', s2', -, s4', -⟩ := send_copies s.out (.ack (k + 1)) (luck s.draws)
    refine ⟨i1, by omega, by rw [i3, k1], by rw [i4, k1], i5, ?_, ?_⟩
    · intro x hx
      exact i6 x (by rw [k4, s1']; simp [hx])
    · intro _ hl
      obtain ⟨x, hx⟩ := List.exists_mem_of_length_pos (s4' hl)
      exact ⟨x, i6 x (by rw [k4, s1']; simp [hx]), s2' x hx⟩

/-- At the beginning of the round at time `i`. -/
structure Live (count i : Nat) (w : World) : Prop where
  ok : WorldOk count w
  empty : w.toConsumer.messages = []
  rate : w.toConsumer.params.invBandwidth ≤ 1000
  state : w.producer.retransmitTime = none ∧ w.producer.seq = w.producer.ack ∨
    ∃ t, w.producer.retransmitTime = some t ∧ w.producer.seq = w.producer.ack + 1 ∧ i ≤ t ∧ w.toConsumer.nextSendTime ≤ t
  seqLe : w.producer.seq ≤ count
  bound : w.consumer.ack ≤ w.producer.seq

theorem producer_turn (luck : Nat → Luck) {count i : Nat} {w : World} (h : Live count i w) :
    let w1 := w.turn luck (.producer i)
    w1.consumer = w.consumer ∧ w1.toProducer.messages = [] ∧ w.producer.ack ≤ w1.producer.ack ∧
    (∀ x ∈ w.toProducer.messages, ∀ a, x.message = .ack a → a ≤ w1.producer.ack) ∧
    ((w1.draws = w.draws ∧ w1.toConsumer = w.toConsumer ∧ w1.producer.seq = w.producer.seq ∧
        (w1.producer.retransmitTime = none ∧ w1.producer.seq = w1.producer.ack ∨
          ∃ t, w1.producer.retransmitTime = some t ∧ w1.producer.seq = w1.producer.ack + 1 ∧ i + 1 ≤ t ∧ w.toConsumer.nextSendTime ≤ t) ∧
        (w.toConsumer.nextSendTime ≤ i → w1.producer.ack = count)) ∨
      (w1.draws = w.draws + 1 ∧ w1.toConsumer = w.toConsumer.send (.data w1.producer.ack s!"Message {w1.producer.ack}") (luck w.draws) ∧
        w1.producer.seq = w1.producer.ack + 1 ∧ w1.producer.retransmitTime = some (i + 1000) ∧ w1.producer.ack < count ∧
        w.toConsumer.nextSendTime ≤ i)) := by
  have hin : ∀ x ∈ w.toProducer.messages, ∃ a ≤ w.consumer.ack, x.message = .ack a := fun x hx => h.ok.producer.inn x hx
  obtain ⟨r1, r2, r3, r4, r5, r6, r7⟩ := receive_acks luck w.toProducer.messages.length ⟨w.producer, w.toConsumer, w.toProducer, w.draws⟩ rfl
    (fun x hx => by obtain ⟨a, -, ha⟩ := hin x hx; exact ⟨a, ha⟩)
  have hok := producer_receive luck count w.consumer.ack w.toProducer.messages.length _ h.ok.producer
  have hw1 : w.turn luck (.producer i) =
      (let s := (((⟨w.producer, w.toConsumer, w.toProducer, w.draws⟩ : Side).receive luck w.toProducer.messages.length).retransmit i).transmit luck i
       { w with producer := s.peer, toConsumer := s.out, toProducer := s.inn, draws := s.draws }) := rfl
  intro w1
  have hw1' : w1 = _ := hw1
  clear_value w1
  subst hw1'
  clear hw1
  generalize (⟨w.producer, w.toConsumer, w.toProducer, w.draws⟩ : Side).receive luck w.toProducer.messages.length = r at *
  simp only at r1 r2 r3 r4 r5 r6 r7 ⊢
  have hle := hok.le
  have hb := h.bound
  have hs := h.seqLe
  have hc : r.peer.count = count := hok.total
  obtain ⟨rp, ro, ri, rd⟩ := r
  simp only at r1 r2 r3 r4 r5 r6 r7 hle hc
  subst r2
  subst r3
  -- what the receive loop has left
  have hst : rp.retransmitTime = none ∧ rp.seq = rp.ack ∨
      ∃ t, rp.retransmitTime = some t ∧ rp.seq = rp.ack + 1 ∧ i ≤ t ∧ w.toConsumer.nextSendTime ≤ t := by
    rcases r7 with r7 | ⟨r7, r8⟩
    · rw [r7]; exact h.state
    · refine .inl ⟨r8, ?_⟩
      rcases h.state with ⟨-, h2⟩ | ⟨t, -, h2, -⟩ <;> omega
  have hge : w.producer.ack ≤ rp.ack := by
    rcases r7 with r7 | ⟨r7, -⟩
    · exact Nat.le_of_eq (by rw [r7])
    · omega
  by_cases hcs : w.toConsumer.nextSendTime ≤ i
  · have hcan : ∀ pe : Peer, Side.canSend i ⟨pe, w.toConsumer, ri, w.draws⟩ = true := fun pe => by simpa [Side.canSend] using hcs
    have hretr : ∃ pe : Peer, (⟨rp, w.toConsumer, ri, w.draws⟩ : Side).retransmit i = ⟨pe, w.toConsumer, ri, w.draws⟩ ∧ pe.ack = rp.ack ∧
        pe.seq = rp.ack ∧ pe.count = count ∧ (rp.ack = count → pe = rp) := by
      rcases hst with ⟨h1, h2⟩ | ⟨t, h1, h2, h3, -⟩
      · refine ⟨rp, ?_, rfl, h2, hc, fun _ => rfl⟩
        unfold Side.retransmit; simp only [h1]
      · refine ⟨{ rp with seq := rp.ack }, ?_, rfl, rfl, hc, by omega⟩
        unfold Side.retransmit
        simp only [h1]
        rw [if_pos ⟨h3, hcan _⟩]
    obtain ⟨pe, e1, e2, e3, e4, e5⟩ := hretr
    rw [e1]
    unfold Side.transmit
    rw [if_pos ⟨by simp only; omega, hcan _⟩]
    by_cases hlt : pe.seq < pe.count
    · rw [if_pos hlt]
      simp only [Side.send]
      refine ⟨trivial, r1, by omega, by rw [e2]; exact r6, .inr ⟨trivial, by rw [e2, e3], by omega, rfl, by omega, hcs⟩⟩
    · rw [if_neg hlt]
      simp only
      have hcount : rp.ack = count := by omega
      have hpe := e5 hcount
      subst hpe
      refine ⟨trivial, r1, by omega, r6, .inl ⟨trivial, trivial, r4, ?_, fun _ => hcount⟩⟩
      rcases hst with h1 | ⟨t, h1, h2, h3, h4⟩
      · exact .inl h1
      · omega
  · have hcan : ∀ pe : Peer, Side.canSend i ⟨pe, w.toConsumer, ri, w.draws⟩ = false := fun pe => by simpa [Side.canSend] using hcs
    have e1 : (⟨rp, w.toConsumer, ri, w.draws⟩ : Side).retransmit i = ⟨rp, w.toConsumer, ri, w.draws⟩ := by
      unfold Side.retransmit
      cases rp.retransmitTime with
      | none => rfl
      | some t =>
        simp only
        rw [if_neg (by rw [hcan]; simp)]
    have e2 : (⟨rp, w.toConsumer, ri, w.draws⟩ : Side).transmit luck i = ⟨rp, w.toConsumer, ri, w.draws⟩ := by
      unfold Side.transmit
      rw [if_neg (by rw [hcan]; simp)]
    rw [e1, e2]
    refine ⟨trivial, r1, hge, r6, .inl ⟨rfl, rfl, r4, ?_, fun hh => absurd hh hcs⟩⟩
    rcases hst with h1 | ⟨t, h1, h2, h3, h4⟩
    · exact .inl h1
    · exact .inr ⟨t, h1, h2, by omega, h4⟩

theorem consumer_turn (luck : Nat → Luck) {count i : Nat} {w : World} (h : WorldOk count w) :
    w.turn luck (.consumer i) =
      (let s := (⟨w.consumer, w.toProducer, w.toConsumer, w.draws⟩ : Side).receive luck w.toConsumer.messages.length
       { w with consumer := s.peer, toProducer := s.out, toConsumer := s.inn, draws := s.draws }) := by
  obtain ⟨h1, -⟩ := consumer_receive luck count w.toConsumer.messages.length _ h.consumer
  unfold World.turn
  simp only [Side.step]
  generalize (⟨w.consumer, w.toProducer, w.toConsumer, w.draws⟩ : Side).receive luck w.toConsumer.messages.length = r at *
  have hr : r.retransmit i = r := by unfold Side.retransmit; rw [h1.timer]
  have ht : r.transmit luck i = r := by
    unfold Side.transmit
    rw [h1.count0]
    simp
  rw [hr, ht]

/-- One round: the invariant is kept, and what the producer has learnt grows; if the channel is ready and nothing is learnt, a packet is sent, and if it and
the next one are not lost, an acknowledgement waits for the producer. -/
theorem round_live (luck : Nat → Luck) {count i : Nat} {w : World} (h : Live count i w)
    (hok1 : WorldOk count (w.turn luck (.producer i))) (hok2 : WorldOk count ((w.turn luck (.producer i)).turn luck (.consumer i))) :
    let w2 := (w.turn luck (.producer i)).turn luck (.consumer i)
    Live count (i + 1) w2 ∧ w.producer.ack ≤ w2.producer.ack ∧
    (∀ x ∈ w.toProducer.messages, ∀ a, x.message = .ack a → a ≤ w2.producer.ack) ∧
    (¬ w.toConsumer.nextSendTime ≤ i → w2.draws = w.draws ∧ w2.toConsumer.nextSendTime = w.toConsumer.nextSendTime) ∧
    (w.toConsumer.nextSendTime ≤ i → w2.producer.ack = count ∨ (w.draws < w2.draws ∧ w2.draws ≤ w.draws + 3 ∧
      ((luck w.draws).first.lost = false → (luck (w.draws + 1)).first.lost = false →
        ∃ x ∈ w2.toProducer.messages, x.message = .ack (w2.producer.ack + 1)))) := by
  obtain ⟨p1, p2, p3, p4, p5⟩ := producer_turn luck h
  intro w2
  have hw2 : w2 = _ := consumer_turn luck hok1
  have hok2' : WorldOk count w2 := hok2
  clear hok2
  clear_value w2
  generalize w.turn luck (.producer i) = w1 at *
  have hcle : w1.producer.ack ≤ w1.consumer.ack := hok1.producer.le
  rcases p5 with ⟨q1, q2, q3, q4, q5⟩ | ⟨q1, q2, q3, q4, q5, q6⟩
  · rw [q2, h.empty] at hw2
    simp only [List.length_nil, Side.receive] at hw2
    rw [← q2] at hw2
    have hw : w2 = w1 := hw2
    subst hw
    refine ⟨⟨hok1, by rw [q2, h.empty], by rw [q2]; exact h.rate, by rw [q2]; exact q4, by rw [q3]; exact h.seqLe, by rw [q3, p1]; exact h.bound⟩,
      p3, p4, fun _ => ⟨q1, by rw [q2]⟩, fun hh => .inl (q5 hh)⟩
  · obtain ⟨new, s1, s2, s3, s4, s5, s6⟩ := send_copies w.toConsumer (.data w1.producer.ack s!"Message {w1.producer.ack}") (luck w.draws)
    rw [← q2] at s1 s5 s6
    rw [h.empty, List.nil_append] at s1
    have hb : w.consumer.ack ≤ w.producer.seq := h.bound
    have hca : w1.consumer.ack ≤ w1.producer.ack + 1 := by
      rw [p1]
      rcases h.state with ⟨-, h2⟩ | ⟨t, -, h2, -⟩ <;> omega
    obtain ⟨r1, r2, r3, r4, r5, r6, r7⟩ := receive_data luck w1.producer.ack s!"Message {w1.producer.ack}" w1.toConsumer.messages.length
      ⟨w1.consumer, w1.toProducer, w1.toConsumer, w1.draws⟩ rfl (by simp only [s1]; exact s2) hcle hca
    simp only at hw2
    generalize (⟨w1.consumer, w1.toProducer, w1.toConsumer, w1.draws⟩ : Side).receive luck w1.toConsumer.messages.length = r at *
    simp only at r1 r2 r3 r4 r5 r6 r7
    have hrate := h.rate
    subst hw2
    have hlen : w1.toConsumer.messages.length = new.length := by rw [s1]
    refine ⟨⟨hok2', r1, by simp only [r3, s5]; exact hrate, .inr ⟨i + 1000, q4, q3, by omega, by simp only [r4, s6]; omega⟩, by simp only; omega,
      by simp only; omega⟩, p3, p4, fun hh => absurd q6 hh, fun _ => .inr ⟨by simp only; omega, by simp only; omega, fun l1 l2 => ?_⟩⟩
    exact r7 (by rw [hlen]; exact s4 l1) (by rw [q1]; exact l2)

section
variable (luck : Nat → Luck) (p : Params) (count : Nat)

/-- The state at time `i`. -/
def stateAt (i : Nat) : World := (World.init p count).run luck (schedule i)

theorem stateAt_succ (i : Nat) : stateAt luck p count (i + 1) = ((stateAt luck p count i).turn luck (.producer i)).turn luck (.consumer i) := by
  simp [stateAt, schedule, World.run, List.foldl_append]

theorem round_ok (i : Nat) : WorldOk count ((stateAt luck p count i).turn luck (.producer i)) := by
  have := worldOk_run luck p count (schedule i ++ [.producer i])
  simpa [stateAt, World.run, List.foldl_append] using this

theorem live (hp : p.invBandwidth ≤ 1000) (i : Nat) : Live count i (stateAt luck p count i) := by
  induction i with
  | zero =>
    exact ⟨worldOk_run luck p count [], rfl, hp, .inl ⟨rfl, rfl⟩, Nat.zero_le _, Nat.zero_le _⟩
  | succ i ih =>
    rw [stateAt_succ]
    refine (round_live luck ih (round_ok luck p count i) ?_).1
    rw [← stateAt_succ]
    exact worldOk_run luck p count (schedule (i + 1))

theorem round_at (hp : p.invBandwidth ≤ 1000) (i : Nat) :
    let w := stateAt luck p count i
    let w2 := stateAt luck p count (i + 1)
    w.producer.ack ≤ w2.producer.ack ∧
    (∀ x ∈ w.toProducer.messages, ∀ a, x.message = .ack a → a ≤ w2.producer.ack) ∧
    (¬ w.toConsumer.nextSendTime ≤ i → w2.draws = w.draws ∧ w2.toConsumer.nextSendTime = w.toConsumer.nextSendTime) ∧
    (w.toConsumer.nextSendTime ≤ i → w2.producer.ack = count ∨ (w.draws < w2.draws ∧ w2.draws ≤ w.draws + 3 ∧
      ((luck w.draws).first.lost = false → (luck (w.draws + 1)).first.lost = false →
        ∃ x ∈ w2.toProducer.messages, x.message = .ack (w2.producer.ack + 1)))) := by
  intro w w2
  have h := (round_live luck (live luck p count hp i) (round_ok luck p count i)
    (by rw [← stateAt_succ]; exact worldOk_run luck p count (schedule (i + 1)))).2
  rw [← stateAt_succ] at h
  exact h

theorem ack_mono (hp : p.invBandwidth ≤ 1000) (i n : Nat) : (stateAt luck p count i).producer.ack ≤ (stateAt luck p count (i + n)).producer.ack := by
  induction n with
  | zero => exact Nat.le_refl _
  | succ n ih =>
    have := (round_at luck p count hp (i + n)).1
    exact Nat.le_trans ih this

/-- The channel becomes ready before anything is drawn. -/
theorem ready (hp : p.invBandwidth ≤ 1000) (n : Nat) : ∀ i, (stateAt luck p count i).toConsumer.nextSendTime ≤ i + n →
    ∃ j ≥ i, (stateAt luck p count j).toConsumer.nextSendTime ≤ j ∧ (stateAt luck p count j).draws = (stateAt luck p count i).draws := by
  induction n with
  | zero => intro i h; exact ⟨i, Nat.le_refl _, h, rfl⟩
  | succ n ih =>
    intro i h
    by_cases hr : (stateAt luck p count i).toConsumer.nextSendTime ≤ i
    · exact ⟨i, Nat.le_refl _, hr, rfl⟩
    · obtain ⟨h1, h2⟩ := (round_at luck p count hp i).2.2.1 hr
      obtain ⟨j, hj, h3, h4⟩ := ih (i + 1) (by omega)
      exact ⟨j, by omega, h3, by rw [h4, h1]⟩

/-- If four sends in a row will not be lost, the producer learns more or knows all. -/
theorem advance (hp : p.invBandwidth ≤ 1000) (m : Nat) (hm : ∀ d, m ≤ d → d < m + 4 → (luck d).first.lost = false) (k : Nat) :
    ∀ i, m + 2 - (stateAt luck p count i).draws ≤ k → (stateAt luck p count i).draws ≤ m + 2 →
    ∃ j ≥ i, (stateAt luck p count j).producer.ack = count ∨ (stateAt luck p count i).producer.ack < (stateAt luck p count j).producer.ack := by
  induction k with
  | zero =>
    intro i h1 h2
    obtain ⟨j, hj, hr, hd⟩ := ready luck p count hp _ i (Nat.le_add_left _ _)
    have hR := (round_at luck p count hp j).2.2.2 hr
    rcases hR with hR | ⟨-, -, hR⟩
    · exact ⟨j + 1, by omega, .inl hR⟩
    · obtain ⟨x, hx, hx'⟩ := hR (hm _ (by omega) (by omega)) (hm _ (by omega) (by omega))
      have h3 := (round_at luck p count hp (j + 1)).2.1 x hx _ hx'
      have h4 := ack_mono luck p count hp i (j + 1 - i)
      rw [show i + (j + 1 - i) = j + 1 by omega] at h4
      exact ⟨j + 1 + 1, by omega, .inr (by omega)⟩
  | succ k ih =>
    intro i h1 h2
    obtain ⟨j, hj, hr, hd⟩ := ready luck p count hp _ i (Nat.le_add_left _ _)
    have hR := (round_at luck p count hp j).2.2.2 hr
    have h4 := ack_mono luck p count hp i (j + 1 - i)
    rw [show i + (j + 1 - i) = j + 1 by omega] at h4
    rcases hR with hR | ⟨hR1, hR2, hR⟩
    · exact ⟨j + 1, by omega, .inl hR⟩
    · by_cases hlt : (stateAt luck p count i).draws < m
      · obtain ⟨j', hj', h5⟩ := ih (j + 1) (by omega) (by omega)
        refine ⟨j', by omega, ?_⟩
        rcases h5 with h5 | h5
        · exact .inl h5
        · exact .inr (by omega)
      · obtain ⟨x, hx, hx'⟩ := hR (hm _ (by omega) (by omega)) (hm _ (by omega) (by omega))
        have h3 := (round_at luck p count hp (j + 1)).2.1 x hx _ hx'
        exact ⟨j + 1 + 1, by omega, .inr (by omega)⟩

theorem reach (hp : p.invBandwidth ≤ 1000) (hl : Passable luck) (k : Nat) :
    ∃ i, (stateAt luck p count i).producer.ack = count ∨ k ≤ (stateAt luck p count i).producer.ack := by
  induction k with
  | zero => exact ⟨0, .inr (Nat.zero_le _)⟩
  | succ k ih =>
    obtain ⟨i, hi⟩ := ih
    rcases hi with hi | hi
    · exact ⟨i, .inl hi⟩
    · obtain ⟨m, hm1, hm2⟩ := hl (stateAt luck p count i).draws
      obtain ⟨j, -, hj⟩ := advance luck p count hp m hm2 _ i (Nat.le_refl _) (by omega)
      refine ⟨j, ?_⟩
      rcases hj with hj | hj
      · exact .inl hj
      · exact .inr (by omega)

end

/-- C192, what holds: if a packet can be sent at least once a second (the retransmission timeout), the transfer completes. The program's rate is one
packet in 523 ms. Missing from C192: slower channels. -/
theorem C192_completes_partial (luck : Nat → Luck) (p : Params) (count : Nat) (hp : p.invBandwidth ≤ 1000) (hl : Passable luck) :
    ∃ n, ∀ ts, ((World.init p count).run luck (schedule n ++ ts)).consumer.delivered = sequence count ∧
      ((World.init p count).run luck (schedule n ++ ts)).producer.ack = count := by
  obtain ⟨n, hn⟩ := reach luck p count hp hl count
  have hn' : count ≤ (stateAt luck p count n).producer.ack := by omega
  refine ⟨n, fun ts => ?_⟩
  obtain ⟨h1, -, -⟩ := C52_stop_and_wait luck p count (schedule n) ts
  obtain ⟨hc, hp'⟩ := worldOk_run luck p count (schedule n ++ ts)
  have h2 : ((World.init p count).run luck (schedule n ++ ts)).producer.ack ≤ ((World.init p count).run luck (schedule n ++ ts)).consumer.ack := hp'.le
  have h3 : ((World.init p count).run luck (schedule n ++ ts)).consumer.ack ≤ count := hc.le
  have h4 : count ≤ ((World.init p count).run luck (schedule n)).producer.ack := hn'
  refine ⟨?_, by omega⟩
  have h5 := hc.delivered
  simp only at h5
  rw [h5]
  congr 1
  omega

/-- Only the first packet is lost. -/
def firstLost : Nat → Luck := fun n => ⟨false, ⟨0, n == 0, 0⟩, ⟨0, false, 0⟩⟩

theorem firstLost_passable : Passable firstLost := fun n => ⟨n + 1, by omega, fun d h _ => by
  have : d ≠ 0 := by omega
  simpa [firstLost] using this⟩

/-- The state in which nothing happens any more. -/
theorem stuck (i : Nat) (hi : 0 < i) : stateAt firstLost ⟨200, 600, 1001⟩ 1 i = stateAt firstLost ⟨200, 600, 1001⟩ 1 1 := by
  induction i with
  | zero => omega
  | succ i ih =>
    rcases Nat.eq_zero_or_pos i with rfl | hpos
    · rfl
    · rw [stateAt_succ, ih hpos]
      by_cases ht : 1000 < i
      · exact C76_stuck_partial firstLost (stateAt firstLost ⟨200, 600, 1001⟩ 1 1) i 1000 ⟨_, _, schedule 1, rfl⟩ (by decide +kernel)
          (by decide +kernel) (by decide +kernel) (by decide +kernel) ht [.producer i, .consumer i] (by simp [Turn.now])
      · have hns : (stateAt firstLost ⟨200, 600, 1001⟩ 1 1).toConsumer.nextSendTime = 1001 := by decide +kernel
        have hm1 : (stateAt firstLost ⟨200, 600, 1001⟩ 1 1).toProducer.messages = [] := by decide +kernel
        have hm2 : (stateAt firstLost ⟨200, 600, 1001⟩ 1 1).toConsumer.messages = [] := by decide +kernel
        have hok := worldOk_run firstLost ⟨200, 600, 1001⟩ 1 (schedule 1)
        change WorldOk 1 (stateAt firstLost ⟨200, 600, 1001⟩ 1 1) at hok
        generalize stateAt firstLost ⟨200, 600, 1001⟩ 1 1 = w at *
        have hcan : Side.canSend i ⟨w.producer, w.toConsumer, w.toProducer, w.draws⟩ = false := by
          simp only [Side.canSend, hns]
          simpa using by omega
        have h1 : w.turn firstLost (.producer i) = w := by
          unfold World.turn
          simp only [Side.step]
          rw [receive_nothing firstLost _ hm1]
          have e1 : (⟨w.producer, w.toConsumer, w.toProducer, w.draws⟩ : Side).retransmit i = ⟨w.producer, w.toConsumer, w.toProducer, w.draws⟩ := by
            unfold Side.retransmit
            cases w.producer.retransmitTime with
            | none => rfl
            | some t =>
              simp only
              rw [if_neg (by rw [hcan]; simp)]
          have e2 : (⟨w.producer, w.toConsumer, w.toProducer, w.draws⟩ : Side).transmit firstLost i =
              ⟨w.producer, w.toConsumer, w.toProducer, w.draws⟩ := by
            unfold Side.transmit
            rw [if_neg (by rw [hcan]; simp)]
          rw [e1, e2]
        rw [h1, consumer_turn firstLost hok, hm2]
        rfl

/-- C192 is false: with one packet in 1001 ms, a lost packet is never sent again. -/
theorem C192_false : ¬ C192_statement := by
  intro h
  obtain ⟨n, hn⟩ := h firstLost ⟨200, 600, 1001⟩ 1 firstLost_passable
  have h1 := (hn [.producer n, .consumer n]).2
  have h2 : stateAt firstLost ⟨200, 600, 1001⟩ 1 (n + 1) = (World.init ⟨200, 600, 1001⟩ 1).run firstLost (schedule n ++ [.producer n, .consumer n]) := rfl
  rw [← h2, stuck (n + 1) (by omega)] at h1
  revert h1
  decide +kernel

/-- C192: three of seven packets are lost. -/
example : Passable (fun n => ⟨n % 2 == 0, ⟨0, decide (n % 7 < 3), 0⟩, ⟨0, true, 0⟩⟩) := fun n => ⟨7 * n + 3, by omega, fun d h1 h2 => by
  simpa using by omega⟩

/-! ### C193 -/

theorem optMinLoop_spec (vs : List (Option Nat)) : ∀ res : Option Nat,
    (optMinLoop vs res = none ↔ res = none ∧ ∀ v ∈ vs, v = none) ∧
    ∀ t, optMinLoop vs res = some t → (res = some t ∨ some t ∈ vs) ∧ (∀ r, res = some r → t ≤ r) ∧ ∀ v, some v ∈ vs → t ≤ v := by
  induction vs with
  | nil =>
    intro res
    refine ⟨by simp [optMinLoop], fun t h => ⟨.inl h, fun r hr => ?_, by simp⟩⟩
    rw [optMinLoop, hr] at h
    cases h
    exact Nat.le_refl _
  | cons v vs ih =>
    intro res
    match v, res with
    | none, res =>
      obtain ⟨h1, h2⟩ := ih res
      refine ⟨by simp [optMinLoop, h1], fun t h => ?_⟩
      obtain ⟨h3, h4, h5⟩ := h2 t h
      exact ⟨by simpa using h3, h4, by simpa using h5⟩
    | some v, none =>
      obtain ⟨h1, h2⟩ := ih (some v)
      refine ⟨by simp [optMinLoop, h1], fun t h => ?_⟩
      obtain ⟨h3, h4, h5⟩ := h2 t h
      refine ⟨.inr ?_, by simp, ?_⟩
      · rcases h3 with h3 | h3
        · cases h3; simp
        · simp [h3]
      · intro x hx
        rcases List.mem_cons.mp hx with hx | hx
        · cases hx; exact h4 _ rfl
        · exact h5 x hx
    | some v, some r =>
      obtain ⟨h1, h2⟩ := ih (some (min r v))
      refine ⟨by simp [optMinLoop, h1], fun t h => ?_⟩
      obtain ⟨h3, h4, h5⟩ := h2 t h
      have h6 := h4 _ rfl
      refine ⟨?_, ?_, ?_⟩
      · rcases h3 with h3 | h3
        · simp only [Option.some.injEq] at h3
          rcases Nat.le_total r v with hle | hle
          · rw [Nat.min_eq_left hle] at h3
            exact .inl (by rw [h3])
          · rw [Nat.min_eq_right hle] at h3
            exact .inr (by simp [h3])
        · exact .inr (by simp [h3])
      · rintro r' hr
        cases hr
        omega
      · intro x hx
        rcases List.mem_cons.mp hx with hx | hx
        · cases hx
          omega
        · exact h5 x hx

/-- **C193**: the smallest of some times that may be missing is one of them and not after any of them; there is none exactly if all are missing. -/
theorem C193_smallest (vs : List (Option Nat)) (r : Option Nat) :
    optMin vs = r ↔ r ∈ none :: vs ∧ (r = none → ∀ v ∈ vs, v = none) ∧ ∀ t, r = some t → ∀ v, some v ∈ vs → t ≤ v := by
  obtain ⟨h1, h2⟩ := optMinLoop_spec vs none
  constructor
  · rintro rfl
    refine ⟨?_, fun h => (h1.mp h).2, fun t ht => (h2 t ht).2.2⟩
    cases h : optMin vs with
    | none => simp
    | some t =>
      rcases (h2 t h).1 with h3 | h3
      · cases h3
      · simp [h3]
  · rintro ⟨h3, h4, h5⟩
    match r with
    | none => exact h1.mpr ⟨rfl, h4 rfl⟩
    | some t =>
      have h6 : some t ∈ vs := by simpa using h3
      cases h : optMin vs with
      | none => exact absurd ((h1.mp h).2 _ h6) (by simp)
      | some u =>
        obtain ⟨h7, -, h8⟩ := h2 u h
        have h9 : some u ∈ vs := by rcases h7 with h7 | h7 <;> [cases h7; exact h7]
        have := h5 t rfl u h9
        have := h8 t h6
        congr 1
        omega

/-- **C193**: after any history of its two channels, an endpoint has a time of the next event, and a time is before it exactly if at that time the endpoint
may not send and nothing that is on the way to it has arrived. -/
theorem C193_next_event {M : Type} (p q : Params) (sent received : List (Op M)) :
    ∃ t, nextEventTime (run (.new M p) sent).2 (run (.new M q) received).2 = some t ∧
      ∀ now, now < t ↔ now < sends sent * p.invBandwidth ∧ ∀ x ∈ (run (.new M q) received).2.messages, now < x.recvTime := by
  have hnext : ∀ (ops : List (Op M)) (c : Channel M), (run c ops).2.nextSendTime = c.nextSendTime + sends ops * c.params.invBandwidth := by
    intro ops
    induction ops with
    | nil => intro c; simp [run, sends]
    | cons op ops ih =>
      intro c
      cases op with
      | send now m l =>
        obtain ⟨new, -, -, -, -, h5, h6⟩ := send_copies c m l
        simp only [run, sends, ih, h5, h6]
        rw [Nat.add_mul]
        omega
      | recv now =>
        simp only [run, sends]
        cases hr : c.recv.1 with
        | none =>
          have h2 := (recv_none hr).2
          generalize c.recv = R at hr h2
          obtain ⟨x, c'⟩ := R
          simp only at hr h2
          subst hr h2
          exact ih c'
        | some mit =>
          obtain ⟨pre, post, -, h2, -⟩ := recv_some hr
          generalize c.recv = R at hr h2
          obtain ⟨x, c'⟩ := R
          simp only at hr h2
          subst hr h2
          exact ih _
  have h1 : (run (.new M p) sent).2.nextSendTime = sends sent * p.invBandwidth := by
    rw [hnext]; simp [Channel.new]
  generalize (run (.new M p) sent).2 = a at h1
  generalize (run (.new M q) received).2 = b
  cases hb : b.nextRecvTime with
  | none =>
    refine ⟨a.nextSendTime, by simp [nextEventTime, optMin, optMinLoop, hb], fun now => ?_⟩
    rw [h1, (nextRecvTime_none b).mp hb]
    simp
  | some t =>
    obtain ⟨⟨m, hm, hmt⟩, hall⟩ := nextRecvTime_some hb
    refine ⟨min a.nextSendTime t, by simp [nextEventTime, optMin, optMinLoop, hb], fun now => ?_⟩
    rw [h1]
    constructor
    · intro h
      refine ⟨by omega, fun x hx => ?_⟩
      have := hall x hx
      omega
    · rintro ⟨h2, h3⟩
      have := h3 m hm
      omega

/-- C193: two packets were sent, the next may be sent at 1046; one arrives at 700. -/
example : nextEventTime (run (.new Nat ⟨200, 600, 523⟩) [.send 0 1 (allLost 0), .send 523 2 (allLost 1)]).2
    (run (.new Nat ⟨700, 800, 523⟩) [.send 0 7 (firstLost 1)]).2 = some 700 := by decide +kernel

end Ngfs.Sim

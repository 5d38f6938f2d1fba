import Verif.Lemmas.Sim

/-! Properties of the simulated network and the transfer protocol on it: C41, C52, C76. -/
namespace Ngfs.Sim
open Spec.Sim

/-! ### C41: the channel -/

/-- The messages in a channel with their times of arrival. -/
abbrev Channel.contents {M : Type} (c : Channel M) : List (Nat × M) := c.messages.map (fun x => (x.recvTime, x.message))

theorem run_conserved {M : Type} (ops : List (Op M)) : ∀ (c : Channel M) (k : Nat),
    c.nextSendTime = k * c.params.invBandwidth →
    ((run c ops).1.map (fun d => (d.2.recvTime, d.2.message)) ++ (run c ops).2.contents).Perm
      (c.contents ++ arrivals c.params k ops) := by
  induction ops with
  | nil => intro c k _; simp [run, arrivals]
  | cons op ops ih =>
    intro c k hk
    cases op with
    | send now m l =>
      obtain ⟨new, h1, h2, h3, -, h5⟩ := send_spec c m l
      have := ih (c.send m l) (k + 1) (by rw [h3, h2, hk, Nat.add_mul, Nat.one_mul])
      simp only [run, arrivals]
      refine this.trans ?_
      rw [h2, Channel.contents, h1, List.map_append, h5, List.append_assoc, hk]
      exact List.Perm.refl _
    | recv now =>
      simp only [arrivals]
      cases hr : c.recv with
      | mk x c' =>
        cases x with
        | none =>
          obtain ⟨-, h2⟩ := recv_none (c := c) (by rw [hr])
          rw [hr] at h2
          simp only at h2
          subst h2
          simp only [run, hr]
          exact ih c' k hk
        | some mit =>
          obtain ⟨pre, post, h1, h2, -⟩ := recv_some (c := c) (mit := mit) (by rw [hr])
          rw [hr] at h2
          simp only at h2
          have := ih c' k (by rw [h2]; exact hk)
          simp only [run, hr, List.map_cons, List.cons_append]
          refine (List.Perm.cons _ this).trans ?_
          rw [h2, Channel.contents, Channel.contents, h1]
          simp only [List.map_append, List.map_cons, List.append_assoc, List.cons_append]
          exact List.perm_middle.symm

/-- **C41**, conservation: whatever is sent and received in whatever order, what has been delivered is, with its time of arrival,
part of what the loss and duplication decisions let through; each copy is delivered at most once, and when nothing more can be
received, all of it has been delivered. -/
theorem C41_conserved {M : Type} (p : Params) (ops : List (Op M)) :
    ∃ left, ((run (.new M p) ops).1.map (fun d => (d.2.recvTime, d.2.message)) ++ left).Perm (arrivals p 0 ops) ∧
      ((run (.new M p) ops).2.recv.1 = none → left = []) := by
  refine ⟨(run (.new M p) ops).2.contents, ?_, ?_⟩
  · have := run_conserved ops (.new M p) 0 (by simp [Channel.new])
    simpa [Channel.new, Channel.contents] using this
  · intro h
    rw [Channel.contents, (recv_none h).1]; rfl

/-- **C41**: at most two copies of a message are let through, none if the first is lost, and each arrives within the
configured latency of its departure. -/
theorem C41_copies (p : Params) (k : Nat) (l : Luck) :
    (copies l).length ≤ 2 ∧ (l.dup = false → (copies l).length ≤ 1) ∧ (l.first.lost = true → copies l = []) ∧
    ∀ f, k * p.invBandwidth + p.latencyMin ≤ due p k f ∧
      (p.latencyMin ≤ p.latencyMax → due p k f ≤ k * p.invBandwidth + p.latencyMax) := by
  obtain ⟨dup, ⟨e1, l1, p1⟩, ⟨e2, l2, p2⟩⟩ := l
  refine ⟨?_, ?_, ?_, fun f => ⟨by unfold due; omega, fun h => by unfold due; omega⟩⟩
  · cases dup <;> cases l1 <;> cases l2 <;> simp [copies]
  · rintro ⟨⟩; cases l1 <;> simp [copies]
  · rintro ⟨⟩; simp [copies]

/-- Order of delivery: by time of arrival, then by priority. -/
def NotAfter {M : Type} (a b : InTransit M) : Prop :=
  a.recvTime ≤ b.recvTime ∧ (b.recvTime = a.recvTime → a.recvPriority ≤ b.recvPriority)

theorem run_recvs {M : Type} (ops : List (Op M)) (hops : ∀ op ∈ ops, ∃ now, op = .recv now) : ∀ (c : Channel M),
    (∀ d ∈ (run c ops).1, d.2 ∈ c.messages) ∧ (run c ops).1.Pairwise (fun a b => NotAfter a.2 b.2) := by
  induction ops with
  | nil => intro c; simp [run]
  | cons op ops ih =>
    intro c
    obtain ⟨now, rfl⟩ := hops op List.mem_cons_self
    have ih' := ih (fun o ho => hops o (List.mem_cons_of_mem _ ho))
    cases hr : c.recv with
    | mk x c' =>
      cases x with
      | none =>
        obtain ⟨-, h2⟩ := recv_none (c := c) (by rw [hr])
        rw [hr] at h2
        simp only at h2
        subst h2
        simp only [run, hr]
        exact ih' c'
      | some mit =>
        obtain ⟨pre, post, h1, h2, -, h4⟩ := recv_some (c := c) (mit := mit) (by rw [hr])
        rw [hr] at h2
        simp only at h2
        simp only [run, hr]
        obtain ⟨h5, h6⟩ := ih' c'
        have hsub : ∀ m ∈ c'.messages, m ∈ c.messages := by
          intro m hm
          rw [h2] at hm
          rw [h1]
          simp only [List.mem_append, List.mem_cons] at hm ⊢
          tauto
        refine ⟨?_, List.pairwise_cons.mpr ⟨fun d hd => h4 d.2 (hsub _ (h5 d hd)), h6⟩⟩
        intro d hd
        rcases List.mem_cons.mp hd with rfl | hd
        · rw [h1]; simp
        · exact hsub _ (h5 d hd)

/-- **C41**: messages received one after the other, with nothing sent in between, come in order of their times of arrival. -/
theorem C41_in_order {M : Type} (p : Params) (before recvs : List (Op M)) (h : ∀ op ∈ recvs, ∃ now, op = .recv now) :
    (run (run (.new M p) before).2 recvs).1.Pairwise (fun a b => NotAfter a.2 b.2) :=
  (run_recvs recvs h _).2

/-- **C41**, the remaining part as stated: nothing is delivered before its time of arrival, and everything is delivered in order
of these times. -/
def C41_statement : Prop :=
  ∀ (p : Params) (ops : List (Op Nat)), Clocked 0 ops →
    (∀ d ∈ (run (.new Nat p) ops).1, d.2.recvTime ≤ d.1) ∧
    (run (.new Nat p) ops).1.Pairwise (fun a b => a.2.recvTime ≤ b.2.recvTime)

/-- **C41** is false: `recv` does not look at the clock. -/
theorem C41_false : ¬ C41_statement := by
  intro h
  obtain ⟨h1, -⟩ := h ⟨200, 600, 523⟩ [.send 0 7 ⟨false, ⟨100, false, 0⟩, ⟨0, false, 0⟩⟩, .recv 0] (by simp [Clocked, Op.now])
  have := h1 (0, ⟨0, 300, 0, 7⟩) (by decide +kernel)
  exact absurd this (by decide)

/-- Use of a channel by the clock: it is asked for a message only once one has arrived, and given one no later than at the time
it is ready to send. -/
def Disciplined {M : Type} : Channel M → List (Op M) → Prop
  | _, [] => True
  | c, .send now m l :: ops => now ≤ c.nextSendTime ∧ Disciplined (c.send m l) ops
  | c, .recv now :: ops => (∃ t, c.nextRecvTime = some t ∧ t ≤ now) ∧ Disciplined c.recv.2 ops

theorem run_disciplined {M : Type} (ops : List (Op M)) : ∀ (c : Channel M) (now : Nat), Clocked now ops → Disciplined c ops →
    ∀ last ≤ now, (∀ m ∈ c.messages, last ≤ m.recvTime) →
    (∀ d ∈ (run c ops).1, d.2.recvTime ≤ d.1) ∧ (∀ d ∈ (run c ops).1, last ≤ d.2.recvTime) ∧
    (run c ops).1.Pairwise (fun a b => a.2.recvTime ≤ b.2.recvTime) := by
  induction ops with
  | nil => intro c now _ _ last _ _; simp [run]
  | cons op ops ih =>
    intro c now hc hd last hl hm
    cases op with
    | send t m l =>
      obtain ⟨hc1, hc2⟩ := hc
      obtain ⟨hd1, hd2⟩ := hd
      simp only [run]
      refine ih (c.send m l) t hc2 hd2 last (Nat.le_trans hl hc1) ?_
      obtain ⟨new, h1, -, -, -, h5⟩ := send_spec c m l
      intro x hx
      rw [h1] at hx
      rcases List.mem_append.mp hx with hx | hx
      · exact hm x hx
      · have hx2 : (x.recvTime, x.message) ∈ new.map (fun x => (x.recvTime, x.message)) := List.mem_map.mpr ⟨x, hx, rfl⟩
        rw [h5] at hx2
        obtain ⟨f, -, hf⟩ := List.mem_map.mp hx2
        have := congrArg Prod.fst hf
        simp only [Op.now] at this hc1
        omega
    | recv t =>
      obtain ⟨hc1, hc2⟩ := hc
      obtain ⟨⟨t0, ht0, ht1⟩, hd2⟩ := hd
      cases hr : c.recv with
      | mk x c' =>
        rw [hr] at hd2
        cases x with
        | none =>
          have h1 := (recv_none (c := c) (by rw [hr])).1
          rw [(nextRecvTime_none c).mpr h1] at ht0
          cases ht0
        | some mit =>
          obtain ⟨pre, post, h1, h2, h3, h4⟩ := recv_some (c := c) (mit := mit) (by rw [hr])
          rw [hr] at h2
          simp only at h2
          rw [h3] at ht0
          cases ht0
          simp only [run, hr]
          have hmit : last ≤ mit.recvTime := hm mit (by rw [h1]; simp)
          obtain ⟨h5, h6, h7⟩ := ih c' t hc2 hd2 mit.recvTime ht1 (by
            intro m hmem
            refine (h4 m ?_).1
            rw [h2] at hmem
            rw [h1]
            simp only [List.mem_append, List.mem_cons] at hmem ⊢
            tauto)
          refine ⟨?_, ?_, List.pairwise_cons.mpr ⟨fun d hd => h6 d hd, h7⟩⟩
          · intro d hd
            rcases List.mem_cons.mp hd with rfl | hd
            · exact ht1
            · exact h5 d hd
          · intro d hd
            rcases List.mem_cons.mp hd with rfl | hd
            · exact hmit
            · exact Nat.le_trans hmit (h6 d hd)

/-- **C41**, partial: a caller that asks for messages only when one has arrived and sends no later than the channel is ready gets
everything at or after its time of arrival and in order of these times. Missing: callers that do not (`C41_false`); the transfer
program is one. -/
theorem C41_disciplined_partial {M : Type} (p : Params) (ops : List (Op M)) (hc : Clocked 0 ops)
    (hd : Disciplined (.new M p) ops) :
    (∀ d ∈ (run (.new M p) ops).1, d.2.recvTime ≤ d.1) ∧
    (run (.new M p) ops).1.Pairwise (fun a b => a.2.recvTime ≤ b.2.recvTime) := by
  obtain ⟨h1, -, h3⟩ := run_disciplined ops (.new M p) 0 hc hd 0 (Nat.le_refl _) (by simp)
  exact ⟨h1, h3⟩

/-- A duplicated message, the second sent, overtaking. -/
example : (run (.new Nat ⟨200, 600, 100⟩) [.send 0 7 ⟨true, ⟨300, false, 0⟩, ⟨100, false, 0⟩⟩,
    .send 100 8 ⟨false, ⟨50, false, 0⟩, ⟨0, false, 0⟩⟩, .recv 300, .recv 350, .recv 500]).1.map (fun d => d.2.message) = [7, 8, 7] ∧
  Clocked 0 [Op.send 0 7 ⟨true, ⟨300, false, 0⟩, ⟨100, false, 0⟩⟩,
    .send 100 8 ⟨false, ⟨50, false, 0⟩, ⟨0, false, 0⟩⟩, .recv 300, .recv 350, .recv 500] := by
  refine ⟨by decide +kernel, by simp [Clocked, Op.now]⟩

example : Disciplined (.new Nat ⟨200, 600, 100⟩) [.send 0 7 ⟨true, ⟨300, false, 0⟩, ⟨100, false, 0⟩⟩,
    .send 100 8 ⟨false, ⟨50, false, 0⟩, ⟨0, false, 0⟩⟩, .recv 300, .recv 350, .recv 500] :=
  ⟨by decide, by decide, ⟨300, by decide +kernel, by decide⟩, ⟨350, by decide +kernel, by decide⟩,
    ⟨500, by decide +kernel, by decide⟩, trivial⟩

/-! ### C52: the transfer protocol -/

/-- The messages the producer has to send. -/
def sequence (count : Nat) : List (Nat × String) := (List.range count).map (fun k => (k, s!"Message {k}"))

/-- Everything in the channel satisfies `P`. -/
def Channel.All {M : Type} (P : M → Prop) (c : Channel M) : Prop := ∀ x ∈ c.messages, P x.message

theorem all_send {M : Type} {P : M → Prop} {c : Channel M} {m : M} {l : Luck} (h : c.All P) (hm : P m) : (c.send m l).All P := by
  obtain ⟨new, h1, -, -, -, h5⟩ := send_spec c m l
  intro x hx
  rw [h1] at hx
  rcases List.mem_append.mp hx with hx | hx
  · exact h x hx
  · have hx2 : (x.recvTime, x.message) ∈ new.map (fun x => (x.recvTime, x.message)) := List.mem_map.mpr ⟨x, hx, rfl⟩
    rw [h5] at hx2
    obtain ⟨f, -, hf⟩ := List.mem_map.mp hx2
    have : m = x.message := congrArg Prod.snd hf
    rw [← this]; exact hm

theorem all_recv {M : Type} {P : M → Prop} {c : Channel M} {mit : InTransit M} (h : c.All P) (hr : c.recv.1 = some mit) :
    P mit.message ∧ c.recv.2.All P := by
  obtain ⟨pre, post, h1, h2, -⟩ := recv_some hr
  refine ⟨h mit (by rw [h1]; simp), ?_⟩
  rw [h2]
  intro x hx
  refine h x ?_
  rw [h1]
  simp only [List.mem_append, List.mem_cons] at hx ⊢
  tauto

/-- What is on the way to the consumer. -/
def IsData (count : Nat) (m : Message) : Prop := ∃ k < count, m = .data k s!"Message {k}"

/-- What is on the way to the producer. -/
def IsAck (n : Nat) (m : Message) : Prop := ∃ a ≤ n, m = .ack a

theorem IsAck.mono {a b : Nat} (h : a ≤ b) {m : Message} : IsAck a m → IsAck b m := by
  rintro ⟨x, hx, rfl⟩; exact ⟨x, Nat.le_trans hx h, rfl⟩

/-- The consumer and its channels. -/
structure ConsumerOk (count : Nat) (s : Side) : Prop where
  count0 : s.peer.count = 0
  timer : s.peer.retransmitTime = none
  le : s.peer.ack ≤ count
  delivered : s.peer.delivered = sequence s.peer.ack
  inn : s.inn.All (IsData count)
  out : s.out.All (IsAck s.peer.ack)

theorem sequence_succ (n : Nat) : sequence (n + 1) = sequence n ++ [(n, s!"Message {n}")] := by
  simp [sequence, List.range_succ]

theorem consumer_receive (luck : Nat → Luck) (count : Nat) (n : Nat) : ∀ (s : Side), ConsumerOk count s →
    ConsumerOk count (s.receive luck n) ∧ s.peer.ack ≤ (s.receive luck n).peer.ack := by
  induction n with
  | zero => intro s h; exact ⟨h, Nat.le_refl _⟩
  | succ n ih =>
    intro s h
    unfold Side.receive
    cases hr : s.inn.recv with
    | mk x inn' =>
      cases x with
      | none => exact ⟨h, Nat.le_refl _⟩
      | some mit =>
        obtain ⟨⟨k, hk, hm⟩, h2⟩ := all_recv h.inn (mit := mit) (by rw [hr])
        rw [hr] at h2
        simp only at h2 ⊢
        have h3 : ConsumerOk count { s with inn := inn' } := ⟨h.count0, h.timer, h.le, h.delivered, h2, h.out⟩
        rw [hm]
        have key : ConsumerOk count ({ s with inn := inn' }.handle luck (.data k s!"Message {k}")) ∧
            s.peer.ack ≤ ({ s with inn := inn' }.handle luck (.data k s!"Message {k}")).peer.ack := by
          unfold Side.handle
          simp only
          split
          · exact ⟨h3, Nat.le_refl _⟩
          · split
            · rename_i hlt heq
              refine ⟨⟨h.count0, h.timer, hk, ?_, h2, ?_⟩, by simp only [Side.send]; omega⟩
              · simp only [Side.send]
                rw [h.delivered, sequence_succ, heq]
              · simp only [Side.send]
                refine all_send (fun x hx => IsAck.mono (by omega) (h.out x hx)) ⟨k + 1, Nat.le_refl _, rfl⟩
            · refine ⟨⟨h.count0, h.timer, h.le, h.delivered, h2, ?_⟩, Nat.le_refl _⟩
              exact all_send h.out ⟨_, Nat.le_refl _, rfl⟩
        obtain ⟨h4, h5⟩ := ih _ key.1
        exact ⟨h4, Nat.le_trans key.2 h5⟩

theorem consumer_step (luck : Nat → Luck) (count now : Nat) (s : Side) (h : ConsumerOk count s) :
    ConsumerOk count (s.step luck now) ∧ s.peer.ack ≤ (s.step luck now).peer.ack := by
  obtain ⟨h1, h2⟩ := consumer_receive luck count s.inn.messages.length s h
  unfold Side.step
  generalize s.receive luck s.inn.messages.length = r at *
  have hr : r.retransmit now = r := by unfold Side.retransmit; rw [h1.timer]
  have ht : r.transmit luck now = r := by
    unfold Side.transmit
    rw [h1.count0]
    simp
  rw [hr, ht]
  exact ⟨h1, h2⟩

/-- The producer and its channels, when the consumer has received `n` messages. -/
structure ProducerOk (count n : Nat) (s : Side) : Prop where
  total : s.peer.count = count
  le : s.peer.ack ≤ n
  delivered : s.peer.delivered = []
  inn : s.inn.All (IsAck n)
  out : s.out.All (IsData count)

theorem producer_receive (luck : Nat → Luck) (count m : Nat) (n : Nat) : ∀ (s : Side), ProducerOk count m s →
    ProducerOk count m (s.receive luck n) := by
  induction n with
  | zero => intro s h; exact h
  | succ n ih =>
    intro s h
    unfold Side.receive
    cases hr : s.inn.recv with
    | mk x inn' =>
      cases x with
      | none => exact h
      | some mit =>
        obtain ⟨⟨k, hk, hm⟩, h2⟩ := all_recv h.inn (mit := mit) (by rw [hr])
        rw [hr] at h2
        simp only at h2 ⊢
        rw [hm]
        apply ih
        unfold Side.handle
        simp only
        split
        · exact ⟨h.total, hk, h.delivered, h2, h.out⟩
        · exact ⟨h.total, h.le, h.delivered, h2, h.out⟩

theorem producer_step (luck : Nat → Luck) (count m now : Nat) (s : Side) (h : ProducerOk count m s) :
    ProducerOk count m (s.step luck now) := by
  have h1 := producer_receive luck count m s.inn.messages.length s h
  unfold Side.step
  generalize s.receive luck s.inn.messages.length = r at *
  have h2 : ProducerOk count m (r.retransmit now) := by
    unfold Side.retransmit
    split
    · exact h1
    · split
      · exact ⟨h1.total, h1.le, h1.delivered, h1.inn, h1.out⟩
      · exact h1
  generalize r.retransmit now = q at *
  unfold Side.transmit
  split
  · split
    · rename_i hlt
      refine ⟨h2.total, h2.le, h2.delivered, h2.inn, ?_⟩
      exact all_send h2.out ⟨_, by rw [← h2.total]; exact hlt, rfl⟩
    · exact h2
  · exact h2

/-- The invariant of a run. -/
structure WorldOk (count : Nat) (w : World) : Prop where
  consumer : ConsumerOk count ⟨w.consumer, w.toProducer, w.toConsumer, w.draws⟩
  producer : ProducerOk count w.consumer.ack ⟨w.producer, w.toConsumer, w.toProducer, w.draws⟩

theorem worldOk_run (luck : Nat → Luck) (p : Params) (count : Nat) (ts : List Turn) :
    WorldOk count ((World.init p count).run luck ts) := by
  have key : ∀ (ts : List Turn) (w : World), WorldOk count w → WorldOk count (w.run luck ts) := by
    intro ts
    induction ts with
    | nil => intro w h; exact h
    | cons t ts ih =>
      intro w h
      refine ih _ ?_
      cases t with
      | producer now =>
        have h1 := producer_step luck count w.consumer.ack now _ h.producer
        refine ⟨⟨h.consumer.count0, h.consumer.timer, h.consumer.le, h.consumer.delivered, h1.out, h1.inn⟩, h1⟩
      | consumer now =>
        obtain ⟨h1, h2⟩ := consumer_step luck count now _ h.consumer
        refine ⟨h1, ⟨h.producer.total, Nat.le_trans h.producer.le h2, h.producer.delivered, h1.out, h1.inn⟩⟩
  refine key ts _ ⟨⟨rfl, rfl, Nat.zero_le _, rfl, ?_, ?_⟩, ⟨rfl, Nat.le_refl _, rfl, ?_, ?_⟩⟩ <;>
    intro x hx <;> simp [World.init, Channel.new] at hx

/-- **C52**: whatever is lost, duplicated or overtaken, at whatever times and in whatever order the two sides take their turns, the
consumer has at every time received a beginning of the producer's sequence: in order, without gaps, each message once. -/
theorem C52_delivered_prefix (luck : Nat → Luck) (p : Params) (count : Nat) (ts : List Turn) :
    ((World.init p count).run luck ts).consumer.delivered <+: sequence count := by
  obtain ⟨h, -⟩ := worldOk_run luck p count ts
  rw [h.delivered]
  refine ⟨(List.range' ((World.init p count).run luck ts).consumer.ack
    (count - ((World.init p count).run luck ts).consumer.ack)).map (fun k => (k, s!"Message {k}")), ?_⟩
  have hle := h.le
  simp only at hle ⊢
  unfold sequence
  rw [← List.map_append, List.range_eq_range', List.range_eq_range']
  congr 1
  have := List.range'_append_1 (s := 0) (m := ((World.init p count).run luck ts).consumer.ack)
    (n := count - ((World.init p count).run luck ts).consumer.ack)
  rw [Nat.zero_add] at this
  rw [this]
  congr 1
  omega

/-- **C52**: the producer counts a message as acknowledged only if the consumer has received it, and nothing is ever delivered to
the producer. -/
theorem C52_acknowledged_received (luck : Nat → Luck) (p : Params) (count : Nat) (ts : List Turn) :
    ((World.init p count).run luck ts).producer.ack ≤ ((World.init p count).run luck ts).consumer.delivered.length ∧
    ((World.init p count).run luck ts).producer.delivered = [] := by
  obtain ⟨h, h2⟩ := worldOk_run luck p count ts
  refine ⟨?_, h2.delivered⟩
  rw [h.delivered]
  simpa [sequence] using h2.le

/-! ### Acknowledgements are not taken back, and one message is on its way at a time -/

theorem handle_ack_le (luck : Nat → Luck) (s : Side) (m : Message) : s.peer.ack ≤ (s.handle luck m).peer.ack ∧
    (s.handle luck m).peer.seq = s.peer.seq ∧ s.peer.delivered <+: (s.handle luck m).peer.delivered := by
  cases m with
  | data seq d =>
    simp only [Side.handle]
    split
    · simp
    · split <;> simp [Side.send] <;> omega
  | ack a =>
    simp only [Side.handle]
    split <;> simp <;> omega

theorem receive_ack_le (luck : Nat → Luck) (n : Nat) (s : Side) : s.peer.ack ≤ (s.receive luck n).peer.ack ∧
    (s.receive luck n).peer.seq = s.peer.seq ∧ s.peer.delivered <+: (s.receive luck n).peer.delivered := by
  induction n generalizing s with
  | zero => simp [Side.receive]
  | succ n ih =>
    rw [Side.receive]
    split
    · simp
    · rename_i mit inn' _
      obtain ⟨h1, h2, h3⟩ := handle_ack_le luck { s with inn := inn' } mit.message
      obtain ⟨h4, h5, h6⟩ := ih ({ s with inn := inn' }.handle luck mit.message)
      exact ⟨Nat.le_trans h1 h4, h5.trans h2, h3.trans h6⟩

theorem step_ack_le (luck : Nat → Luck) (now : Nat) (s : Side) : s.peer.ack ≤ (s.step luck now).peer.ack ∧
    (s.peer.seq ≤ s.peer.ack + 1 → (s.step luck now).peer.seq ≤ (s.step luck now).peer.ack + 1) ∧
    s.peer.delivered <+: (s.step luck now).peer.delivered := by
  unfold Side.step
  obtain ⟨h1, h2, h3⟩ := receive_ack_le luck s.inn.messages.length s
  generalize s.receive luck s.inn.messages.length = r at h1 h2 h3
  have hr : (r.retransmit now).peer.ack = r.peer.ack ∧ ((r.retransmit now).peer.seq = r.peer.seq ∨ (r.retransmit now).peer.seq = r.peer.ack) ∧
      (r.retransmit now).peer.delivered = r.peer.delivered := by
    unfold Side.retransmit
    split
    · simp
    · split <;> simp
  generalize r.retransmit now = q at hr
  obtain ⟨h4, h5, h6⟩ := hr
  have ht : (q.transmit luck now).peer.ack = q.peer.ack ∧
      ((q.transmit luck now).peer.seq = q.peer.seq ∨ (q.transmit luck now).peer.seq = q.peer.ack + 1) ∧
      (q.transmit luck now).peer.delivered = q.peer.delivered := by
    unfold Side.transmit
    split
    · rename_i h
      split
      · simp [Side.send, h.1]
      · simp
    · simp
  generalize q.transmit luck now = p at ht
  obtain ⟨h7, h8, h9⟩ := ht
  refine ⟨by omega, fun h => by omega, ?_⟩
  rw [h9, h6]; exact h3

theorem turn_ack_le (luck : Nat → Luck) (w : World) (t : Turn) : w.producer.ack ≤ (w.turn luck t).producer.ack ∧
    (w.producer.seq ≤ w.producer.ack + 1 → (w.turn luck t).producer.seq ≤ (w.turn luck t).producer.ack + 1) ∧
    w.consumer.delivered <+: (w.turn luck t).consumer.delivered := by
  cases t with
  | producer now =>
    have h := step_ack_le luck now ⟨w.producer, w.toConsumer, w.toProducer, w.draws⟩
    exact ⟨h.1, h.2.1, List.prefix_refl _⟩
  | consumer now =>
    have h := step_ack_le luck now ⟨w.consumer, w.toProducer, w.toConsumer, w.draws⟩
    exact ⟨Nat.le_refl _, id, h.2.2⟩

/-- **C52**: what the producer counts as acknowledged stays acknowledged and what the consumer has received stays received, whatever
happens later; and at every time at most one message is sent and not acknowledged. -/
theorem C52_stop_and_wait (luck : Nat → Luck) (p : Params) (count : Nat) (ts ts' : List Turn) :
    ((World.init p count).run luck ts).producer.ack ≤ ((World.init p count).run luck (ts ++ ts')).producer.ack ∧
    ((World.init p count).run luck ts).consumer.delivered <+: ((World.init p count).run luck (ts ++ ts')).consumer.delivered ∧
    ((World.init p count).run luck ts).producer.seq ≤ ((World.init p count).run luck ts).producer.ack + 1 := by
  have key : ∀ (ts : List Turn) (w : World), w.producer.ack ≤ (w.run luck ts).producer.ack ∧
      (w.producer.seq ≤ w.producer.ack + 1 → (w.run luck ts).producer.seq ≤ (w.run luck ts).producer.ack + 1) ∧
      w.consumer.delivered <+: (w.run luck ts).consumer.delivered := by
    intro ts
    induction ts with
    | nil => intro w; exact ⟨Nat.le_refl _, id, List.prefix_refl _⟩
    | cons t ts ih =>
      intro w
      obtain ⟨h1, h2, h3⟩ := turn_ack_le luck w t
      obtain ⟨h4, h5, h6⟩ := ih (w.turn luck t)
      exact ⟨Nat.le_trans h1 h4, fun h => h5 (h2 h), h3.trans h6⟩
  have happ : (World.init p count).run luck (ts ++ ts') = ((World.init p count).run luck ts).run luck ts' := by
    simp [World.run, List.foldl_append]
  rw [happ]
  exact ⟨(key ts' _).1, (key ts' _).2.2, (key ts _).2.1 (by simp [World.init, Peer.new])⟩

/-- Two messages; the first attempt at the first is lost, the second attempt is duplicated. -/
example : ((World.init ⟨0, 0, 10⟩ 2).run
      (fun n => if n = 0 then ⟨false, ⟨0, true, 0⟩, ⟨0, false, 0⟩⟩ else ⟨true, ⟨0, false, 0⟩, ⟨0, false, 0⟩⟩)
      [.producer 0, .consumer 5, .producer 10, .consumer 15, .producer 20, .consumer 21]).consumer.delivered =
    [(0, "Message 0"), (1, "Message 1")] := by decide +kernel

/-! ### C76: retransmission -/

/-- Whether the producer sends something in its turn at `now`. -/
def sendsAt (luck : Nat → Luck) (w : World) (now : Nat) : Prop :=
  w.toConsumer.nextSendTime < (w.turn luck (.producer now)).toConsumer.nextSendTime

/-- **C76**, as stated: with a message outstanding and nothing received, the producer sends it again once its timeout has passed
and it may send, and not before. -/
def C76_statement : Prop :=
  ∀ (luck : Nat → Luck) (p : Params) (count : Nat) (ts : List Turn) (now timeout : Nat),
    (ts.map Turn.now ++ [now]).Pairwise (· ≤ ·) → 0 < p.invBandwidth →
    let w := (World.init p count).run luck ts
    w.producer.ack < w.producer.seq → w.toProducer.messages = [] → w.producer.retransmitTime = some timeout →
    w.toConsumer.nextSendTime ≤ now → (sendsAt luck w now ↔ timeout < now)

/-- Every copy is lost. -/
def allLost : Nat → Luck := fun _ => ⟨false, ⟨0, true, 0⟩, ⟨0, true, 0⟩⟩

/-- **C76** is false: the comparison with the timeout is the wrong way around. -/
theorem C76_false : ¬ C76_statement := by
  intro h
  have := (h allLost ⟨200, 600, 1001⟩ 5 [.producer 0] 1001 1000 (by decide) (by decide) (by decide +kernel) (by decide +kernel)
    (by decide +kernel) (by decide +kernel)).mpr (by decide)
  revert this
  unfold sendsAt
  decide +kernel

theorem receive_nothing (luck : Nat → Luck) (s : Side) {ms : List (InTransit Message)} (h : ms = []) :
    s.receive luck ms.length = s := by
  rw [h]; rfl

theorem producerTurn_idle (luck : Nat → Luck) (w : World) (now timeout : Nat) (h1 : w.producer.ack < w.producer.seq)
    (h2 : w.toProducer.messages = []) (h3 : w.producer.retransmitTime = some timeout) (h4 : timeout < now) :
    w.turn luck (.producer now) = w := by
  unfold World.turn
  simp only [Side.step]
  rw [receive_nothing luck _ h2]
  have hr : Side.retransmit now ⟨w.producer, w.toConsumer, w.toProducer, w.draws⟩ =
      ⟨w.producer, w.toConsumer, w.toProducer, w.draws⟩ := by
    unfold Side.retransmit
    simp only [h3]
    rw [if_neg (by rintro ⟨h, -⟩; omega)]
  rw [hr]
  have ht : Side.transmit luck now ⟨w.producer, w.toConsumer, w.toProducer, w.draws⟩ =
      ⟨w.producer, w.toConsumer, w.toProducer, w.draws⟩ := by
    unfold Side.transmit
    rw [if_neg (by rintro ⟨h, -⟩; simp only at h; omega)]
  rw [ht]

/-- **C76**, partial: with a message outstanding, nothing received and the channel ready, the producer sends again exactly if the
timeout has not passed yet. Missing: the claim itself, which is the opposite (`C76_false`). -/
theorem C76_resends_exactly_partial (luck : Nat → Luck) (w : World) (now timeout : Nat)
    (hb : 0 < w.toConsumer.params.invBandwidth)
    (hout : w.producer.ack < w.producer.seq) (hcount : w.producer.ack < w.producer.count)
    (hin : w.toProducer.messages = []) (ht : w.producer.retransmitTime = some timeout)
    (hs : w.toConsumer.nextSendTime ≤ now) : sendsAt luck w now ↔ now ≤ timeout := by
  constructor
  · intro h
    by_contra hlt
    unfold sendsAt at h
    rw [producerTurn_idle luck w now timeout hout hin ht (by omega)] at h
    omega
  · intro hle
    unfold sendsAt World.turn
    simp only [Side.step]
    rw [receive_nothing luck _ hin]
    have hr : Side.retransmit now ⟨w.producer, w.toConsumer, w.toProducer, w.draws⟩ =
        ⟨{ w.producer with seq := w.producer.ack }, w.toConsumer, w.toProducer, w.draws⟩ := by
      unfold Side.retransmit
      simp only [ht]
      rw [if_pos ⟨hle, by simpa [Side.canSend] using hs⟩]
    rw [hr]
    unfold Side.transmit
    rw [if_pos ⟨rfl, by simpa [Side.canSend] using hs⟩, if_pos hcount]
    simp only [Side.send]
    obtain ⟨new, -, -, h3, -⟩ := send_spec w.toConsumer (.data w.producer.ack s!"Message {w.producer.ack}") (luck w.draws)
    rw [h3]
    omega

/-- **C76**: a message that is lost and whose timeout passes is never sent again: nothing happens any more, for ever. -/
theorem C76_stuck_partial (luck : Nat → Luck) (w : World) (now timeout : Nat) (hw : ∃ p count ts, w = (World.init p count).run luck ts)
    (hout : w.producer.ack < w.producer.seq) (hin : w.toProducer.messages = []) (hto : w.toConsumer.messages = [])
    (ht : w.producer.retransmitTime = some timeout) (hlt : timeout < now) (ts : List Turn) (hts : ∀ t ∈ ts, now ≤ t.now) :
    w.run luck ts = w := by
  obtain ⟨p, count, ts0, hw⟩ := hw
  have hok := worldOk_run luck p count ts0
  rw [← hw] at hok
  clear hw ts0
  induction ts with
  | nil => rfl
  | cons t ts ih =>
    have hstep : w.turn luck t = w := by
      have hn := hts t List.mem_cons_self
      cases t with
      | producer n => exact producerTurn_idle luck w n timeout hout hin ht (Nat.lt_of_lt_of_le hlt hn)
      | consumer n =>
        unfold World.turn
        simp only [Side.step]
        rw [receive_nothing luck _ hto]
        have h1 := hok.consumer.timer
        have h2 := hok.consumer.count0
        simp only at h1 h2
        have hr : Side.retransmit n ⟨w.consumer, w.toProducer, w.toConsumer, w.draws⟩ =
            ⟨w.consumer, w.toProducer, w.toConsumer, w.draws⟩ := by
          unfold Side.retransmit; simp only [h1]
        rw [hr]
        have htr : Side.transmit luck n ⟨w.consumer, w.toProducer, w.toConsumer, w.draws⟩ =
            ⟨w.consumer, w.toProducer, w.toConsumer, w.draws⟩ := by
          unfold Side.transmit; simp [h2]
        rw [htr]
    show World.run luck (w.turn luck t) ts = w
    rw [hstep]
    exact ih (fun t ht => hts t (List.mem_cons_of_mem _ ht))

/-- Such a state is reached after one loss, if the channel sends a packet every 1001 ms. -/
example : ∃ w, w = (World.init ⟨200, 600, 1001⟩ 5).run allLost [.producer 0, .consumer 0] ∧ w.producer.ack < w.producer.seq ∧
    w.toProducer.messages = [] ∧ w.toConsumer.messages = [] ∧ w.producer.retransmitTime = some 1000 :=
  ⟨_, rfl, by decide +kernel, by decide +kernel, by decide +kernel, by decide +kernel⟩

/-- With the program's own rate it is sent again long before the timeout, at 523. -/
example : sendsAt allLost ((World.init ⟨200, 600, 523⟩ 5).run allLost [.producer 0]) 523 := by
  unfold sendsAt; decide +kernel

end Ngfs.Sim

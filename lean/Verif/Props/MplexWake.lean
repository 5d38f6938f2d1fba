import Verif.Lemmas.MplexWakeOut

/-!
C128-C131: is every task that waits on a multiplexed connection woken when what it waits for is there?
-/
namespace Ngfs.Mplex
open Ngfs.Spec.MplexWake

/-! ### C128 -/

/-- Any number of tasks, any transport, any interleaving of polls and wake-ups, streams dropped at any
time: as long as no accept or read has failed, no future is dropped half-way, the other side opens no
number twice, and we have not run out of numbers, a task that waits for something to arrive is
never left asleep when its poll would be answered. -/
theorem C128_never_stranded (tr : Transport) (as : List Action) (hgive : ∀ t, .abandon t ∉ as)
    (hwork : ∀ pre t op, pre ++ [.poll t op] <+: as → Incoming op → ¬ Failed (((Sys.new tr).run pre).conn.step op).1)
    (honce : (opened ((Sys.new tr).run as).taken).Nodup) (hnum : openings as < 2 ^ 64 - 33)
    {op : Op} (hin : Incoming op) : ¬ Stranded ((Sys.new tr).run as) op := by
  rintro ⟨hq, ⟨t, hp⟩, ha⟩
  refine ha (quiet_pending ?_ hq hp hin)
  refine run_winv as _ (new_winv tr) (works_gentle as _ hgive hwork) honce ?_
  show 33 + openings as < 2 ^ 64
  omega

/-- Three tasks: one waits for streams, two read; the second reader finds the data of the first. -/
def wakeActions : List Action :=
  [.poll 1 .accept, .poll 1 .accept, .poll 2 (.read 0 10), .poll 3 (.read 1 10), .poll 1 .accept, .readable,
   .poll 1 .accept]

def wakeTransport : Transport :=
  ⟨[.ready [0, 0, 8, 0], .pending, .pending, .pending, .ready [2, 1, 65]], [], [], [], []⟩

/-- The hypotheses are met, a task has just been woken for the data that another found, and everybody
waits. -/
example : (∀ t, .abandon t ∉ wakeActions) ∧ (opened ((Sys.new wakeTransport).run wakeActions).taken).Nodup ∧
    openings wakeActions < 2 ^ 64 - 33 ∧ ((Sys.new wakeTransport).run wakeActions).awake = [2] ∧
    ((Sys.new wakeTransport).run wakeActions).waits = [(1, .accept), (3, .read 1 10), (2, .read 0 10)] := by
  refine ⟨?_, by decide +kernel, by decide +kernel, by decide +kernel, by decide +kernel⟩
  intro t h
  simp [wakeActions] at h

example : ∀ pre t op, pre ++ [.poll t op] <+: wakeActions → Incoming op →
    ¬ Failed (((Sys.new wakeTransport).run pre).conn.step op).1 := by
  intro pre t op hpre _
  obtain ⟨post, he⟩ := hpre
  have hlen : pre.length < 7 := by
    have := congrArg List.length he
    simp only [List.length_append, wakeActions, List.length_cons, List.length_nil] at this
    omega
  have hop : wakeActions[pre.length]? = some (.poll t op) := by
    rw [← he]; simp
  have hpr : pre = wakeActions.take pre.length := by rw [← he]; simp
  rw [hpr]
  generalize pre.length = n at *
  have key : ∀ m < 7, ∀ t op, wakeActions[m]? = some (.poll t op) →
      (((Sys.new wakeTransport).run (wakeActions.take m)).conn.step op).1 ≠ .panicked ∧
      ∀ k, (((Sys.new wakeTransport).run (wakeActions.take m)).conn.step op).1 ≠ .failed k := by
    intro m hm t op h
    have h0 : m = 0 ∨ m = 1 ∨ m = 2 ∨ m = 3 ∨ m = 4 ∨ m = 5 ∨ m = 6 := by omega
    rcases h0 with rfl | rfl | rfl | rfl | rfl | rfl | rfl
    · cases h
      have : (((Sys.new wakeTransport).run (wakeActions.take 0)).conn.step .accept).1 = .stream (.initiator 0) := by decide +kernel
      rw [this]; exact ⟨nofun, nofun⟩
    · cases h
      have : (((Sys.new wakeTransport).run (wakeActions.take 1)).conn.step .accept).1 = .stream (.initiator 1) := by decide +kernel
      rw [this]; exact ⟨nofun, nofun⟩
    · cases h
      have : (((Sys.new wakeTransport).run (wakeActions.take 2)).conn.step (.read 0 10)).1 = .pending := by decide +kernel
      rw [this]; exact ⟨nofun, nofun⟩
    · cases h
      have : (((Sys.new wakeTransport).run (wakeActions.take 3)).conn.step (.read 1 10)).1 = .pending := by decide +kernel
      rw [this]; exact ⟨nofun, nofun⟩
    · cases h
      have : (((Sys.new wakeTransport).run (wakeActions.take 4)).conn.step .accept).1 = .pending := by decide +kernel
      rw [this]; exact ⟨nofun, nofun⟩
    · cases h
    · cases h
      have : (((Sys.new wakeTransport).run (wakeActions.take 6)).conn.step .accept).1 = .pending := by decide +kernel
      rw [this]; exact ⟨nofun, nofun⟩
  obtain ⟨k1, k2⟩ := key n hlen t op hop
  rintro (h | ⟨k, h⟩)
  · exact k1 h
  · exact k2 k h

/-! ### C129 -/

/-- When the connection fails, everybody who waits for something to arrive is told. -/
def C129_statement : Prop :=
  ∀ (tr : Transport) (as : List Action), (∀ t, .abandon t ∉ as) → (opened ((Sys.new tr).run as).taken).Nodup →
    openings as < 2 ^ 64 - 33 → ∀ op, Incoming op → ¬ Stranded ((Sys.new tr).run as) op

/-- Two tasks read from two streams. A malformed frame arrives. The task that is woken gets the error; the
other is left asleep, although its read would fail as well. -/
theorem C129_false : ¬ C129_statement := by
  intro h
  refine h ⟨[.ready [0, 0, 8, 0], .pending, .pending, .ready [7, 0]], [], [], [], []⟩
    [.poll 1 .accept, .poll 1 .accept, .poll 1 (.read 0 10), .poll 2 (.read 1 10), .readable, .poll 2 (.read 1 10)]
    ?_ (by decide +kernel) (by decide +kernel) (.read 0 10) trivial ?_
  · intro t h; simp at h
  · refine ⟨⟨?_, ?_, ?_⟩, ⟨1, by decide +kernel⟩, ?_⟩
    · decide +kernel
    · intro h; exact (h (by decide +kernel)).elim
    · intro h; exact (h (by decide +kernel)).elim
    · show _ ≠ _
      decide +kernel

/-- True when one task does all the receiving: whatever fails, it is told. (It may also give up what
it waits for.) -/
theorem C129_lone_partial (tr : Transport) (as : List Action) (t0 : Task)
    (hlone : ∀ t op, .poll t op ∈ as → Incoming op → t = t0)
    (honce : (opened ((Sys.new tr).run as).taken).Nodup) (hnum : openings as < 2 ^ 64 - 33)
    {op : Op} (hin : Incoming op) : ¬ Stranded ((Sys.new tr).run as) op := by
  rintro ⟨hq, ⟨t, hp⟩, ha⟩
  refine ha (quiet_pending ?_ hq hp hin)
  refine run_winv as _ (new_winv tr) (lone_gentle as _ (fun p hp => by cases hp) hlone) honce ?_
  show 33 + openings as < 2 ^ 64
  omega

/-- The hypotheses are met by an execution in which the connection fails and the task is told. -/
example : ((Sys.new ⟨[.ready [0, 0], .pending, .ready [7, 0]], [], [], [], []⟩).run
    [.poll 1 .accept, .poll 1 (.read 0 10), .readable, .poll 1 (.read 0 10)]).answers =
      [.stream (.initiator 0), .pending, .failed .invalidData] ∧
    ∀ t op, .poll t op ∈ [Action.poll 1 .accept, .poll 1 (.read 0 10), .readable, .poll 1 (.read 0 10)] →
      Incoming op → t = 1 := by
  refine ⟨by decide +kernel, ?_⟩
  intro t op h _
  simp at h
  rcases h with h | h <;> exact h.1

/-! ### C130 -/

/-- A task that stops waiting (a timeout, a `select!`) does not leave others asleep. -/
def C130_statement : Prop :=
  ∀ (tr : Transport) (as : List Action),
    (∀ pre t op, pre ++ [.poll t op] <+: as → Incoming op → ¬ Failed (((Sys.new tr).run pre).conn.step op).1) →
    (opened ((Sys.new tr).run as).taken).Nodup → openings as < 2 ^ 64 - 33 →
    ∀ op, Incoming op → ¬ Stranded ((Sys.new tr).run as) op

/-- Two tasks read from two streams; the second gives up. The data for the first arrives, but the transport
wakes the second. -/
theorem C130_false : ¬ C130_statement := by
  intro h
  refine h ⟨[.ready [0, 0, 8, 0], .pending, .pending, .ready [2, 1, 65]], [], [], [], []⟩
    [.poll 1 .accept, .poll 1 .accept, .poll 1 (.read 0 10), .poll 2 (.read 1 10), .abandon 2, .readable]
    ?_ (by decide +kernel) (by decide +kernel) (.read 0 10) trivial ?_
  · intro pre t op hpre _
    have hlen : pre.length < 6 := by
      have := hpre.length_le
      simp at this
      omega
    obtain ⟨post, he⟩ := hpre
    generalize hA : [Action.poll 1 .accept, .poll 1 .accept, .poll 1 (.read 0 10), .poll 2 (.read 1 10), .abandon 2, .readable] = A at he
    have hop : A[pre.length]? = some (.poll t op) := by rw [← he]; simp
    have hpr : pre = A.take pre.length := by rw [← he]; simp
    rw [hpr]
    subst hA
    clear he hpr
    generalize pre.length = n at hop hlen
    have h0 : n = 0 ∨ n = 1 ∨ n = 2 ∨ n = 3 ∨ n = 4 ∨ n = 5 := by omega
    rcases h0 with rfl | rfl | rfl | rfl | rfl | rfl
    · cases hop
      rintro (h | ⟨k, h⟩)
      · exact absurd h (by decide +kernel)
      · rw [show ∀ x, x = Answer.stream (.initiator 0) → (x = .failed k ↔ False) by rintro _ rfl; simp] at h
        · exact h
        · decide +kernel
    · cases hop
      rintro (h | ⟨k, h⟩)
      · exact absurd h (by decide +kernel)
      · rw [show ∀ x, x = Answer.stream (.initiator 1) → (x = .failed k ↔ False) by rintro _ rfl; simp] at h
        · exact h
        · decide +kernel
    · cases hop
      rintro (h | ⟨k, h⟩)
      · exact absurd h (by decide +kernel)
      · rw [show ∀ x, x = Answer.pending → (x = .failed k ↔ False) by rintro _ rfl; simp] at h
        · exact h
        · decide +kernel
    · cases hop
      rintro (h | ⟨k, h⟩)
      · exact absurd h (by decide +kernel)
      · rw [show ∀ x, x = Answer.pending → (x = .failed k ↔ False) by rintro _ rfl; simp] at h
        · exact h
        · decide +kernel
    · cases hop
    · cases hop
  · refine ⟨⟨?_, ?_, ?_⟩, ⟨1, by decide +kernel⟩, ?_⟩
    · decide +kernel
    · intro h; exact (h (by decide +kernel)).elim
    · intro h; exact (h (by decide +kernel)).elim
    · show _ ≠ _
      decide +kernel

/-- True when whoever gives up is, at that moment, the only one who waits for something to arrive; the same for
whoever gets an error. -/
theorem C130_alone_partial (tr : Transport) (as : List Action)
    (hgive : ∀ pre t, pre ++ [.abandon t] <+: as → ∀ p ∈ ((Sys.new tr).run pre).waits, p.1 ≠ t → ¬ Incoming p.2)
    (hwork : ∀ pre t op, pre ++ [.poll t op] <+: as → Incoming op → Failed (((Sys.new tr).run pre).conn.step op).1 →
      ∀ p ∈ ((Sys.new tr).run pre).waits, p.1 ≠ t → ¬ Incoming p.2)
    (honce : (opened ((Sys.new tr).run as).taken).Nodup) (hnum : openings as < 2 ^ 64 - 33)
    {op : Op} (hin : Incoming op) : ¬ Stranded ((Sys.new tr).run as) op := by
  rintro ⟨hq, ⟨t, hp⟩, ha⟩
  refine ha (quiet_pending ?_ hq hp hin)
  refine run_winv as _ (new_winv tr) (prefix_gentle as _ ?_) honce ?_
  · intro pre a hpre
    cases a with
    | poll t op => exact hwork pre t op hpre
    | abandon t => exact fun _ => hgive pre t hpre
    | _ => trivial
  · show 33 + openings as < 2 ^ 64
    omega

/-- The hypotheses are met when the only reader gives up and another then reads. -/
example : ((Sys.new ⟨[.ready [0, 0, 8, 0], .pending, .pending, .ready [2, 1, 65]], [], [], [], []⟩).run
    [.poll 1 .accept, .poll 1 .accept, .poll 2 (.read 1 10), .abandon 2, .poll 1 (.read 0 10), .readable, .poll 1 (.read 0 10)]).answers =
      [.stream (.initiator 0), .stream (.initiator 1), .pending, .pending, .bytes [65]] ∧
    ∀ p ∈ ((Sys.new ⟨[.ready [0, 0, 8, 0], .pending, .pending, .ready [2, 1, 65]], [], [], [], []⟩).run
      [.poll 1 .accept, .poll 1 .accept, .poll 2 (.read 1 10)]).waits, p.1 = 2 := by
  refine ⟨by decide +kernel, ?_⟩
  intro p hp
  have : ((Sys.new ⟨[.ready [0, 0, 8, 0], .pending, .pending, .ready [2, 1, 65]], [], [], [], []⟩).run
      [.poll 1 .accept, .poll 1 .accept, .poll 2 (.read 1 10)]).waits = [(2, .read 1 10)] := by decide +kernel
  rw [this, List.mem_singleton] at hp
  rw [hp]

/-! ### C131 -/

/-- Every task that waits to send is woken when it can. -/
def C131_statement : Prop :=
  ∀ (tr : Transport) (as : List Action), (∀ t, .abandon t ∉ as) → (∀ a ∈ ((Sys.new tr).run as).answers, ¬ Failed a) →
    ∀ op, Outgoing op → ¬ Stranded ((Sys.new tr).run as) op

/-- Two tasks flush two streams over a transport that cannot take more just now. When it can, it wakes the
one that asked last, which sends everything; the other is left asleep. -/
theorem C131_false : ¬ C131_statement := by
  intro h
  refine h ⟨[.ready [0, 0, 8, 0]], [], [.pending, .pending, .ok, .ok], [], []⟩
    [.poll 1 .accept, .poll 1 .accept, .poll 1 (.flush 0), .poll 2 (.flush 1), .writable, .poll 2 (.flush 1)]
    ?_ ?_ (.flush 0) trivial ?_
  · intro t h; simp at h
  · have : ((Sys.new ⟨[.ready [0, 0, 8, 0]], [], [.pending, .pending, .ok, .ok], [], []⟩).run
        [.poll 1 .accept, .poll 1 .accept, .poll 1 (.flush 0), .poll 2 (.flush 1), .writable, .poll 2 (.flush 1)]).answers =
        [.stream (.initiator 0), .stream (.initiator 1), .pending, .pending, .done] := by decide +kernel
    rw [this]
    intro a ha
    simp only [List.mem_cons, List.not_mem_nil, or_false] at ha
    rcases ha with rfl | rfl | rfl | rfl | rfl <;> rintro (h | ⟨k, h⟩) <;> cases h
  · refine ⟨⟨?_, ?_, ?_⟩, ⟨1, by decide +kernel⟩, ?_⟩
    · decide +kernel
    · intro h; exact (h (by decide +kernel)).elim
    · intro h; exact (h (by decide +kernel)).elim
    · show _ ≠ _
      decide +kernel

/-- True when one task does all the sending: it is always woken, whatever the others do and whatever
fails, short of a panic. -/
theorem C131_lone_partial (tr : Transport) (as : List Action) (t0 : Task)
    (hlone : ∀ t op, .poll t op ∈ as → Outgoing op → t = t0) (hpanic : .panicked ∉ ((Sys.new tr).run as).answers)
    {op : Op} (hout : Outgoing op) : ¬ Stranded ((Sys.new tr).run as) op := by
  rintro ⟨hq, ⟨t, hp⟩, ha⟩
  exact ha (quiet_out (run_out as _ (new_out t0 tr) hlone hpanic) hq hp hout)

/-- The hypotheses are met by an execution in which the sending task waits and is woken. -/
example : ((Sys.new ⟨[.ready [0, 0]], [.pending, .accept 10], [.ok, .ok], [], []⟩).run
    [.poll 1 .accept, .poll 2 (.write 0 [65]), .poll 2 (.flush 0), .poll 1 (.read 0 5), .writable, .poll 2 (.flush 0)]).answers =
      [.stream (.initiator 0), .written 1, .pending, .pending, .done] := by decide +kernel

end Ngfs.Mplex

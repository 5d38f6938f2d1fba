import Verif.Spec.TlsTool
import Verif.Lemmas.Stack
import Verif.Props.TlsConn
import Verif.Props.Pem

/-!
The invariant behind C150 and C151: what the TLS client program has done so far is a history of calls on the connection
that the handshake has yielded.
-/
namespace Ngfs.Tls
open Ngfs.Spec

/-! ### The options -/

theorem pemFile_iff {n : Nat} (hn : 6 ≤ n) {files : String → Except IoKind Bytes} {name label : String} {raw : Bytes} :
    readPem n files name = .ok (label, raw) ↔ PemFile files name label raw := by
  unfold readPem PemFile
  cases hf : files name with
  | error k => simp
  | ok data =>
    simp only [Except.ok.injEq]
    constructor
    · intro h
      have : Pem.decodePem n data = .ok (label, raw) := by
        cases hd : Pem.decodePem n data with
        | error e => rw [hd] at h; cases h
        | ok r => rw [hd] at h; cases h; rfl
      obtain ⟨h', body, f, g1, g2, g3, g4, g5⟩ := (Pem.C66_accepts_exactly data label raw n hn).mp this
      exact ⟨h', body, f, g4, g1, g2, g3, g5⟩
    · rintro ⟨h', body, f, g4, g1, g2, g3, g5⟩
      rw [(Pem.C66_accepts_exactly data label raw n hn).mpr ⟨h', body, f, g1, g2, g3, g4, g5⟩]

theorem certificateFile_iff {n : Nat} (hn : 6 ≤ n) {files : String → Except IoKind Bytes} {name : String} {raw : Bytes} :
    readCertificate n files name = .ok raw ↔ PemFile files name "CERTIFICATE" raw := by
  rw [← pemFile_iff hn]
  unfold readCertificate readPem
  cases hf : files name with
  | error k => simp
  | ok data =>
    simp only
    constructor
    · intro h
      cases hd : Pem.decodePemWithLabel n data "CERTIFICATE" with
      | error e => rw [hd] at h; cases h
      | ok r =>
        rw [hd] at h
        cases h
        rw [(Pem.C66_label_checked data "CERTIFICATE" raw n).mp hd]
    · intro h
      cases hd : Pem.decodePem n data with
      | error e => rw [hd] at h; cases h
      | ok r =>
        rw [hd] at h
        cases h
        rw [(Pem.C66_label_checked data "CERTIFICATE" raw n).mpr hd]

theorem keyFile_iff {n : Nat} (hn : 6 ≤ n) {files : String → Except IoKind Bytes} {name : String} {isRsa : Bool} {raw : Bytes} :
    readKey n files name = .ok (isRsa, raw) ↔
      PemFile files name (if isRsa then "RSA PRIVATE KEY" else "PRIVATE KEY") raw := by
  rw [← pemFile_iff hn]
  unfold readKey
  cases hr : readPem n files name with
  | error e => simp [bind, Except.bind]
  | ok p =>
    obtain ⟨label, data⟩ := p
    simp only [bind, Except.bind, Except.ok.injEq, Prod.mk.injEq]
    by_cases h1 : label = "RSA PRIVATE KEY"
    · subst h1
      cases isRsa <;> simp
    · by_cases h2 : label = "PRIVATE KEY"
      · subst h2
        cases isRsa <;> simp
      · cases isRsa <;> simp [h1, h2]

theorem optional_ok {α : Type} {f : String → Except ToolErr α} {o : Option String} {r : Option α} :
    optional f o = .ok r ↔ (o = none ∧ r = none) ∨ ∃ name a, o = some name ∧ f name = .ok a ∧ r = some a := by
  cases o with
  | none => simp [optional, eq_comm]
  | some name =>
    simp only [optional]
    cases hf : f name with
    | error e => simp [hf]
    | ok a => simp [hf, eq_comm]

/-! ### The calls -/

theorem connRun_one {X K : Type} (cr : Crypto X K) (c0 c : Conn) (ops : List ConnOp) (h : (connRun cr c0 ops).2 = c) (op : ConnOp) :
    (connRun cr c0 (ops ++ [op])).1 = (connRun cr c0 ops).1 ++ [(op.step cr c).1] ∧
    (connRun cr c0 (ops ++ [op])).2 = (op.step cr c).2 := by
  induction ops generalizing c0 with
  | nil => cases h; exact ⟨rfl, rfl⟩
  | cons o ops ih =>
    obtain ⟨h1, h2⟩ := ih (o.step cr c0).2 h
    exact ⟨by simp only [List.cons_append, connRun, h1], h2⟩

/-- What the program has done with its connection. -/
structure History {X K : Type} (cr : Crypto X K) (c0 c : Conn) (shown : List Shown) (rest : Bytes) (ops : List ConnOp) :
    Prop where
  conn : (connRun cr c0 ops).2 = c
  data : shownBytes shown = readBytes (connRun cr c0 ops).1
  eof : Shown.eof ∈ shown → .read bufSize (.ready (.ok [])) ∈ (connRun cr c0 ops).1
  request : (accepted (connRun cr c0 ops).1).flatten ++ rest = request
  chunks : ∀ d ∈ accepted (connRun cr c0 ops).1, d ≠ []
  noShutdown : .shutdown ∉ ops

theorem shownBytes_append (a b : List Shown) : shownBytes (a ++ b) = shownBytes a ++ shownBytes b := by
  induction a with
  | nil => rfl
  | cons x a ih => cases x <;> simp [shownBytes, ih]

theorem History.one {X K : Type} {cr : Crypto X K} {c0 c : Conn} {shown : List Shown} {rest : Bytes} {ops : List ConnOp}
    (h : History cr c0 c shown rest ops) (op : ConnOp) (hop : op ≠ .shutdown) (more : List Shown) (rest' : Bytes)
    (h1 : shownBytes more = readBytes [(op.step cr c).1])
    (h2 : Shown.eof ∈ more → (op.step cr c).1 = .read bufSize (.ready (.ok [])))
    (h3 : (accepted [(op.step cr c).1]).flatten ++ rest' = rest)
    (h4 : ∀ d ∈ accepted [(op.step cr c).1], d ≠ []) :
    History cr c0 (op.step cr c).2 (shown ++ more) rest' (ops ++ [op]) := by
  obtain ⟨g1, g2⟩ := connRun_one cr c0 c ops h.conn op
  refine ⟨g2, ?_, ?_, ?_, ?_, ?_⟩
  · rw [g1, shownBytes_append, Stack.readBytes_append, h.data, h1]
  · intro hm
    rw [g1]
    rcases List.mem_append.mp hm with hm | hm
    · exact List.mem_append_left _ (h.eof hm)
    · exact List.mem_append_right _ (by rw [h2 hm]; simp)
  · rw [g1, Stack.accepted_append, List.flatten_append, List.append_assoc, h3, h.request]
  · intro d hd
    rw [g1, Stack.accepted_append] at hd
    rcases List.mem_append.mp hd with hd | hd
    · exact h.chunks d hd
    · exact h4 d hd
  · intro hm
    rcases List.mem_append.mp hm with hm | hm
    · exact h.noShutdown hm
    · simp only [List.mem_singleton] at hm
      exact hop hm.symm

/-- The invariant of the program that starts with the handshake `s0`. -/
def ToolInv {X K : Type} (cr : Crypto X K) (s0 : ECState X K) (t : Tool X K) : Prop :=
  match t.stage with
  | .connecting s => (∃ k, s = pollTimes cr k s0) ∧ t.shown = []
  | .writing c rest => ∃ c0 ops, Established cr s0 c0 ∧ History cr c0 c t.shown rest ops ∧ t.shown = []
  | .flushing c => ∃ c0 ops, Established cr s0 c0 ∧ History cr c0 c t.shown [] ops ∧ t.shown = []
  | .reading c => ∃ c0 ops, Established cr s0 c0 ∧ History cr c0 c t.shown [] ops ∧ c.plaintext.outgoing = [] ∧ .eof ∉ t.shown
  | .ended c => ∃ c0 ops, Established cr s0 c0 ∧ History cr c0 c t.shown [] ops ∧ c.plaintext.outgoing = [] ∧ .eof ∈ t.shown
  | .failed _ => t.shown = [] ∨
    ∃ c0 c ops, Established cr s0 c0 ∧ History cr c0 c t.shown [] ops ∧ c.plaintext.outgoing = [] ∧ .eof ∉ t.shown

theorem pollTimes_succ {X K : Type} (cr : Crypto X K) (k : Nat) : ∀ s : ECState X K,
    pollTimes cr (k + 1) s = (establishPoll cr (pollTimes cr k s)).2 := by
  induction k with
  | zero => exact fun _ => rfl
  | succ k ih => exact fun s => ih _

theorem toolInv_step {X K : Type} (cr : Crypto X K) (s0 : ECState X K) (t : Tool X K) (h : ToolInv cr s0 t) :
    ToolInv cr s0 (t.step cr) := by
  obtain ⟨stage, shown⟩ := t
  cases stage with
  | connecting s =>
    obtain ⟨⟨k, hk⟩, hs⟩ := h
    simp only at hs
    subst hs
    simp only [Tool.step]
    have hk' := pollTimes_succ cr k s0
    rw [← hk] at hk'
    have hest : ∀ c, (establishPoll cr s).1 = .ready (.ok c) → Established cr s0 c := fun c hc => ⟨k, by rw [← hk]; exact hc⟩
    generalize establishPoll cr s = P at hk' hest
    obtain ⟨_ | (e | c), s'⟩ := P
    · exact ⟨⟨k + 1, hk'.symm⟩, rfl⟩
    · exact .inl rfl
    · exact ⟨c, [], hest c rfl, ⟨rfl, rfl, nofun, by simp [connRun, accepted], nofun, nofun⟩, rfl⟩
  | writing c rest =>
    obtain ⟨c0, ops, he, hh, hs⟩ := h
    simp only at hs hh
    subst hs
    simp only [Tool.step]
    split
    · next hr => subst hr; exact ⟨c0, ops, he, hh, rfl⟩
    · next hr =>
      have hone := hh.one (.write rest) (by simp) []
      have hev : ((ConnOp.write rest).step cr c).1 = .write rest (c.pollWrite cr rest).1 := rfl
      have hst : ((ConnOp.write rest).step cr c).2 = (c.pollWrite cr rest).2 := rfl
      rw [hev, hst, List.append_nil] at hone
      generalize c.pollWrite cr rest = P at hone
      obtain ⟨_ | (e | n), c'⟩ := P
      · exact ⟨c0, _, he, hone rest rfl nofun rfl nofun, rfl⟩
      · exact .inl rfl
      · simp only
        split
        · exact .inl rfl
        · next hn =>
          refine ⟨c0, _, he, hone (rest.drop n) rfl nofun (by simp [accepted]) ?_, rfl⟩
          intro d hd
          simp only [accepted, List.mem_singleton] at hd
          subst hd
          intro h0
          rcases List.take_eq_nil_iff.mp h0 with h0 | h0
          · exact hn h0
          · exact hr h0
  | flushing c =>
    obtain ⟨c0, ops, he, hh, hs⟩ := h
    simp only at hs hh
    subst hs
    simp only [Tool.step]
    have hone := hh.one .flush (by simp) []
    have hout := (C27_flush_means_sent cr c).1
    have hev : (ConnOp.flush.step cr c).1 = .flush c.pollFlush.1 := rfl
    have hst : (ConnOp.flush.step cr c).2 = c.pollFlush.2 := rfl
    rw [hev, hst, List.append_nil] at hone
    generalize c.pollFlush = P at hone hout
    obtain ⟨_ | (e | u), c'⟩ := P
    · exact ⟨c0, _, he, hone [] rfl nofun rfl nofun, rfl⟩
    · exact .inl rfl
    · exact ⟨c0, _, he, hone [] rfl nofun rfl nofun, hout rfl, nofun⟩
  | reading c =>
    obtain ⟨c0, ops, he, hh, ho, hs⟩ := h
    simp only at hs hh ho
    simp only [Tool.step]
    have hone := hh.one (.read bufSize) (by simp)
    have hev : ((ConnOp.read bufSize).step cr c).1 = .read bufSize (c.pollRead cr bufSize).1 := rfl
    have hst : ((ConnOp.read bufSize).step cr c).2 = (c.pollRead cr bufSize).2 := rfl
    have htx := congrArg Tx.outgoing (pollRead_tx cr c bufSize)
    simp only [Conn.tx] at htx
    rw [ho] at htx
    rw [hev, hst] at hone
    generalize c.pollRead cr bufSize = P at hone htx
    obtain ⟨_ | (e | d), c'⟩ := P
    · exact ⟨c0, _, he, by simpa using hone [] [] rfl nofun rfl nofun, htx, hs⟩
    · exact .inr ⟨c0, c', _, he, by simpa using hone [] [] rfl nofun rfl nofun, htx, hs⟩
    · simp only
      split
      · next hd =>
        obtain rfl := List.eq_nil_of_length_eq_zero hd
        exact ⟨c0, _, he, hone [.eof] [] rfl (fun _ => rfl) rfl nofun, htx, by simp⟩
      · exact ⟨c0, _, he, hone [.data d] [] (by simp [shownBytes, readBytes]) (by simp) rfl nofun, htx, by simp [hs]⟩
  | ended c => exact h
  | failed e => exact h

theorem toolInv_run {X K : Type} (cr : Crypto X K) (s0 : ECState X K) (k : Nat) : ∀ t : Tool X K, ToolInv cr s0 t →
    ToolInv cr s0 (t.run cr k) := by
  induction k with
  | zero => exact fun _ h => h
  | succ k ih => exact fun t h => ih _ (toolInv_step cr s0 t h)

theorem run_failed {X K : Type} (cr : Crypto X K) (k : Nat) (e : ToolErr) (l : List Shown) :
    Tool.run cr k (⟨.failed e, l⟩ : Tool X K) = ⟨.failed e, l⟩ := by
  induction k with
  | zero => rfl
  | succ k ih => exact ih

end Ngfs.Tls

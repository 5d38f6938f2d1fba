import Verif.Model.Announce
import Verif.Props.Tracker

/-! C187, C188: the command that announces to a tracker of a torrent. -/
namespace Ngfs.Tracker
open Spec Spec.Tracker Binary

/-- C187: a number chosen from the list that `trackers` prints (counted from zero) makes `announce` speak to that tracker. -/
def C187_statement : Prop :=
  ∀ (parse : String → Option Url) (resolve : String → Nat → Option (List Endpoint)) (groups : List (List String)) (n : Nat) (infoHash : Bytes)
    (listenPort t1 t2 : Nat) (inbox : List (Endpoint × Bytes)) (line : String) (url : Url), (trackersCmd groups)[n]? = some line →
    parse line = some url →
    announceCmd parse resolve groups n infoHash listenPort t1 t2 inbox = runWithUrl resolve url infoHash listenPort t1 t2 inbox

theorem memberUrls_eq (parse : String → Option Url) (ts : List String) : memberUrls parse ts = ts.filterMap parse := by
  induction ts with
  | nil => rfl
  | cons t ts ih =>
    simp only [memberUrls, List.filterMap_cons, ih]
    cases parse t <;> rfl

theorem trackerUrls_eq (parse : String → Option Url) (groups : List (List String)) :
    trackerUrls parse groups = (trackersCmd groups).filterMap parse := by
  induction groups with
  | nil => rfl
  | cons g gs ih => simp only [trackerUrls, ih, memberUrls_eq, trackersCmd, List.flatMap_cons, List.filterMap_append]

/-- The code does not satisfy C187: URLs that cannot be parsed are listed but not counted. -/
theorem C187_false : ¬ C187_statement := by
  intro h
  have := h (fun s => if s = "udp://b:2" then some ⟨some "b", some 2⟩ else none) (fun _ _ => none) [["//", "udp://b:2"]] 1 [] 0 0 0 []
    "udp://b:2" ⟨some "b", some 2⟩ rfl (by decide)
  revert this
  decide +kernel

/-- C187, what holds: if all trackers that are listed before it have URLs that can be parsed, the one chosen is spoken to. Missing from C187: lists
with other URLs before it. -/
theorem C187_parsed_before_partial (parse : String → Option Url) (resolve : String → Nat → Option (List Endpoint)) (groups : List (List String))
    (before after : List String) (line : String) (url : Url) (infoHash : Bytes) (listenPort t1 t2 : Nat) (inbox : List (Endpoint × Bytes))
    (hl : trackersCmd groups = before ++ line :: after) (hp : parse line = some url) (hb : ∀ s ∈ before, parse s ≠ none) :
    announceCmd parse resolve groups before.length infoHash listenPort t1 t2 inbox = runWithUrl resolve url infoHash listenPort t1 t2 inbox := by
  have hlen : (before.filterMap parse).length = before.length := by
    clear hl
    induction before with
    | nil => rfl
    | cons s ss ih =>
      cases hs : parse s with
      | none => exact absurd hs (hb s (by simp))
      | some u => simp [hs, ih (fun s hs => hb s (by simp [hs]))]
  have hget : (trackerUrls parse groups)[before.length]? = some url := by
    rw [trackerUrls_eq, hl, List.filterMap_append, List.filterMap_cons, hp]
    simp only
    rw [← hlen, List.getElem?_append_right (Nat.le_refl _), Nat.sub_self]
    rfl
  simp only [announceCmd, hget]

/-- C187, what holds: whatever the number, it is a listed tracker that is spoken to, that with so many listed before it that can be parsed; and if there
is none, nothing is sent. Missing from C187: that the number is that in the list. -/
theorem C187_listed_partial (parse : String → Option Url) (resolve : String → Nat → Option (List Endpoint)) (groups : List (List String)) (n : Nat)
    (infoHash : Bytes) (listenPort t1 t2 : Nat) (inbox : List (Endpoint × Bytes)) :
    (∃ before line after url, trackersCmd groups = before ++ line :: after ∧ parse line = some url ∧
      (before.filter fun s => (parse s).isSome).length = n ∧
      announceCmd parse resolve groups n infoHash listenPort t1 t2 inbox = runWithUrl resolve url infoHash listenPort t1 t2 inbox) ∨
    (((trackersCmd groups).filter fun s => (parse s).isSome).length ≤ n ∧
      announceCmd parse resolve groups n infoHash listenPort t1 t2 inbox = ([], .error .unknownTracker)) := by
  have hlen : ∀ l : List String, (l.filterMap parse).length = (l.filter fun s => (parse s).isSome).length := by
    intro l
    induction l with
    | nil => rfl
    | cons s ss ih => cases hs : parse s <;> simp [hs, ih]
  have key : ∀ (l : List String) (n : Nat) (url : Url), (l.filterMap parse)[n]? = some url → ∃ before line after, l = before ++ line :: after ∧
      parse line = some url ∧ (before.filter fun s => (parse s).isSome).length = n := by
    intro l
    induction l with
    | nil => intro n url h; simp at h
    | cons s ss ih =>
      intro n url h
      cases hs : parse s with
      | none =>
        rw [List.filterMap_cons, hs] at h
        obtain ⟨b, l, a, h1, h2, h3⟩ := ih n url h
        exact ⟨s :: b, l, a, by simp [h1], h2, by simp [hs, h3]⟩
      | some u =>
        rw [List.filterMap_cons, hs] at h
        cases n with
        | zero =>
          simp only [List.getElem?_cons_zero, Option.some.injEq] at h
          exact ⟨[], s, ss, rfl, by rw [hs, h], rfl⟩
        | succ n =>
          simp only [List.getElem?_cons_succ] at h
          obtain ⟨b, l, a, h1, h2, h3⟩ := ih n url h
          exact ⟨s :: b, l, a, by simp [h1], h2, by simp [hs, h3]⟩
  cases hg : (trackerUrls parse groups)[n]? with
  | none =>
    refine .inr ⟨?_, by simp only [announceCmd, hg]⟩
    rw [trackerUrls_eq, List.getElem?_eq_none_iff, hlen] at hg
    exact hg
  | some url =>
    have hg' := hg
    rw [trackerUrls_eq] at hg'
    obtain ⟨b, l, a, h1, h2, h3⟩ := key _ _ _ hg'
    exact .inl ⟨b, l, a, url, h1, h2, h3, by simp only [announceCmd, hg]⟩

/-- C187: two groups; the second URL cannot be parsed, so number 1 is the third. -/
example : announceCmd (fun s => if s = "x" then none else some ⟨some s, some 1⟩) (fun h p => if h = "c" then some [⟨7, p⟩] else none)
    [["a", "x"], ["c"]] 1 [] 6881 5 6 [] = ([(⟨7, 1⟩, connectRequest 5)], .error .waiting) := by decide +kernel

/-! ### C188 -/

/-- C188: what `announce` shows as the answer of the tracker came from the tracker: the peers shown are those of a datagram that came from where the
request was sent to. -/
def C188_statement : Prop :=
  ∀ (resolve : String → Nat → Option (List Endpoint)) (url : Url) (infoHash : Bytes) (listenPort t1 t2 : Nat) (inbox : List (Endpoint × Bytes))
    (a : Announce), (runWithUrl resolve url infoHash listenPort t1 t2 inbox).2 = .ok a →
    ∃ source d, (source, d) ∈ inbox ∧ parseAnnounce (d.take 4096) = .ok a ∧
      ∀ dest b, (dest, b) ∈ (runWithUrl resolve url infoHash listenPort t1 t2 inbox).1 → source = dest

/-- The code does not satisfy C188: the source of a datagram is printed but not compared. -/
theorem C188_false : ¬ C188_statement := by
  intro h
  obtain ⟨source, d, hm, -, hs⟩ := h (fun _ _ => some [⟨1, 1⟩]) ⟨some "a", some 1⟩ [] 6881 0 0
    [(⟨2, 2⟩, List.replicate 16 0), (⟨2, 2⟩, [0, 0, 0, 1] ++ List.replicate 16 0)] ⟨0, 0, 0, 0, []⟩ (by decide +kernel)
  have hd := hs ⟨1, 1⟩ (connectRequest 0) (by decide +kernel)
  simp only [List.mem_cons, Prod.mk.injEq, List.not_mem_nil, or_false] at hm
  rcases hm with ⟨rfl, -⟩ | ⟨rfl, -⟩ <;> cases hd

/-- C188, what holds: everything is sent to the first address of the tracker; peers are shown only if the first datagram that arrived is a connect response
with the random number of this request; the peers shown are those of the second datagram that arrived. Missing from C188: where they came from. -/
theorem C188_number_partial (resolve : String → Nat → Option (List Endpoint)) (url : Url) (infoHash : Bytes) (listenPort t1 t2 : Nat)
    (inbox : List (Endpoint × Bytes)) :
    (∀ dest b, (dest, b) ∈ (runWithUrl resolve url infoHash listenPort t1 t2 inbox).1 →
      ∃ host port more, url.host = some host ∧ url.port = some port ∧ resolve host port = some (dest :: more)) ∧
    ∀ a, (runWithUrl resolve url infoHash listenPort t1 t2 inbox).2 = .ok a →
      ∃ s1 d1 s2 d2 rest c, inbox = (s1, d1) :: (s2, d2) :: rest ∧ ConnectResponse t1 c d1 ∧ parseAnnounce (d2.take 4096) = .ok a := by
  unfold runWithUrl
  cases hh : url.host with
  | none => exact ⟨nofun, nofun⟩
  | some host =>
    cases hp : url.port with
    | none => exact ⟨nofun, nofun⟩
    | some port =>
      simp only
      cases hr : resolve host port with
      | none => exact ⟨nofun, nofun⟩
      | some addrs =>
        cases addrs with
        | nil => exact ⟨nofun, nofun⟩
        | cons tracker more =>
          have hdest : ∀ dest, dest = tracker → ∃ h p m, some host = some h ∧ some port = some p ∧ resolve h p = some (dest :: m) := by
            rintro _ rfl
            exact ⟨host, port, more, rfl, rfl, hr⟩
          simp only
          match inbox with
          | [] =>
            refine ⟨fun dest b hm => hdest dest ?_, nofun⟩
            simp only [List.mem_cons, Prod.mk.injEq, List.not_mem_nil, or_false] at hm
            exact hm.1
          | (s1, d1) :: rest =>
            simp only
            cases hc : checkConnectResponse t1 d1 with
            | error e =>
              refine ⟨fun dest b hm => hdest dest ?_, nofun⟩
              simp only [List.mem_cons, Prod.mk.injEq, List.not_mem_nil, or_false] at hm
              exact hm.1
            | ok c =>
              have hcr := (C94_connect_response t1 c d1).mp hc
              have hin : ∀ dest b, (dest, b) ∈ [(tracker, connectRequest t1), (tracker, announceRequest c t2 infoHash listenPort)] → dest = tracker := by
                intro dest b hm
                simp only [List.mem_cons, Prod.mk.injEq, List.not_mem_nil, or_false] at hm
                rcases hm with hm | hm <;> exact hm.1
              simp only
              match rest with
              | [] => exact ⟨fun dest b hm => hdest dest (hin dest b hm), nofun⟩
              | (s2, d2) :: rest =>
                simp only
                cases hpa : parseAnnounce (receive 4096 d2) with
                | error e => exact ⟨fun dest b hm => hdest dest (hin dest b hm), nofun⟩
                | ok a' =>
                  refine ⟨fun dest b hm => hdest dest (hin dest b hm), fun a ha => ?_⟩
                  simp only [Except.ok.injEq] at ha
                  subst ha
                  exact ⟨s1, d1, s2, d2, rest, c, rfl, hcr, hpa⟩

/-- **C94**: with the addresses resolved and two datagrams received, the command is the exchange with the tracker that C94 describes, all of it with
the first address. -/
theorem C94_command (resolve : String → Nat → Option (List Endpoint)) (host : String) (port : Nat) (tracker : Endpoint) (more : List Endpoint)
    (infoHash : Bytes) (listenPort t1 t2 : Nat) (s1 s2 : Endpoint) (d1 d2 : Bytes) (rest : List (Endpoint × Bytes))
    (hr : resolve host port = some (tracker :: more)) :
    (runWithUrl resolve ⟨some host, some port⟩ infoHash listenPort t1 t2 ((s1, d1) :: (s2, d2) :: rest)).1 =
      (runWithTracker infoHash listenPort t1 t2 d1 d2).1.map (fun b => (tracker, b)) ∧
    (runWithUrl resolve ⟨some host, some port⟩ infoHash listenPort t1 t2 ((s1, d1) :: (s2, d2) :: rest)).2 =
      (runWithTracker infoHash listenPort t1 t2 d1 d2).2.mapError .exchange := by
  simp only [runWithUrl, runWithTracker, hr]
  cases checkConnectResponse t1 d1 with
  | error e => exact ⟨rfl, rfl⟩
  | ok c =>
    simp only
    cases parseAnnounce (receive 4096 d2) with
    | error e => exact ⟨rfl, rfl⟩
    | ok a => exact ⟨rfl, rfl⟩

/-- C188: an exchange that succeeds. -/
example : (runWithUrl (fun _ _ => some [⟨1, 1⟩]) ⟨some "a", some 1⟩ [] 6881 0 0
    [(⟨1, 1⟩, List.replicate 16 0), (⟨1, 1⟩, [0, 0, 0, 1] ++ List.replicate 16 0 ++ [10, 0, 0, 1, 0, 80])] ).2 =
    .ok ⟨0, 0, 0, 0, [(0x0a000001, 80)]⟩ := by decide +kernel

end Ngfs.Tracker

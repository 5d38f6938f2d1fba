import Verif.Model.UdpTest
import Verif.Lemmas.Slice
import Verif.Lemmas.Pem

/-!
C218: what the server of `udptest` shows of the datagrams it receives.
-/
namespace Ngfs.UdpTest

/-- What is known of `String::from_utf8_lossy`: the bytes of a text are turned into this text. -/
def Reads (lossy : Bytes → String) : Prop := ∀ s, lossy (utf8Encode s) = s

/-- The line that shows a text. -/
def showing (text : String) : String := "Server: Received \"" ++ text ++ "\"\n"

/-- The property C218: the server shows each datagram, in the order of arrival. -/
def C218_statement (lossy : Bytes → String) : Prop :=
  ∀ ds : List Bytes, (server lossy (.ok ()) (ds.map .datagram)).1 = "Server: Created socket\n" :: ds.map (fun d => showing (lossy d))

/-- The other half: from all that is shown one can tell which texts arrived. -/
def C218_told_statement (lossy : Bytes → String) : Prop :=
  ∀ texts texts' : List String,
    String.join (server lossy (.ok ()) ((texts.map utf8Encode).map .datagram)).1 =
      String.join (server lossy (.ok ()) ((texts'.map utf8Encode).map .datagram)).1 → texts = texts'

theorem loop_datagrams (lossy : Bytes → String) (ds : List Bytes) :
    serverLoop lossy (ds.map .datagram) = (ds.map (fun d => showing (lossy (d.take 1024))), none) := by
  induction ds with
  | nil => rfl
  | cons d ds ih =>
    rw [List.map_cons, serverLoop, ih]
    rfl

/-- **C218**, what holds: as long as the socket does not fail, the server goes on, and shows of each datagram the first 1024 bytes, in the
order of arrival. -/
theorem C218_shows_partial (lossy : Bytes → String) (ds : List Bytes) :
    server lossy (.ok ()) (ds.map .datagram) =
      ("Server: Created socket\n" :: ds.map (fun d => showing (lossy (d.take 1024))), none) := by
  unfold server
  rw [loop_datagrams]
  rfl

/-- **C218**, what holds: so datagrams of up to 1024 bytes are shown as they are. -/
theorem C218_short_partial (lossy : Bytes → String) (ds : List Bytes) (h : ∀ d ∈ ds, d.length ≤ 1024) :
    (server lossy (.ok ()) (ds.map .datagram)).1 = "Server: Created socket\n" :: ds.map (fun d => showing (lossy d)) := by
  rw [C218_shows_partial]
  exact congrArg _ (List.map_congr_left (fun d hd => by rw [List.take_of_length_le (h d hd)]))

/-- **C218**, what holds: the server ends only when the socket fails, with this error, and it has then shown what arrived before. -/
theorem C218_ends_partial (lossy : Bytes → String) (es : List Arrival) (k : IoKind) (h : (server lossy (.ok ()) es).2 = some k) :
    ∃ (ds : List Bytes) (rest : List Arrival), es = ds.map .datagram ++ .fails k :: rest ∧
      (server lossy (.ok ()) es).1 = (server lossy (.ok ()) (ds.map .datagram)).1 := by
  have key : ∀ es, (serverLoop lossy es).2 = some k → ∃ (ds : List Bytes) (rest : List Arrival),
      es = ds.map .datagram ++ .fails k :: rest ∧ (serverLoop lossy es).1 = (serverLoop lossy (ds.map .datagram)).1 := by
    intro es
    induction es with
    | nil => intro h; cases h
    | cons e es ih =>
      intro h
      cases e with
      | fails j => cases h; exact ⟨[], es, rfl, rfl⟩
      | datagram d =>
        obtain ⟨ds, rest, h1, h2⟩ := ih h
        refine ⟨d :: ds, rest, by rw [h1]; rfl, ?_⟩
        rw [List.map_cons, serverLoop, serverLoop, h2]
  obtain ⟨ds, rest, h1, h2⟩ := key es h
  refine ⟨ds, rest, h1, ?_⟩
  unfold server
  rw [h2]

/-- **C218**: what the client sends is shown as `hello`. -/
theorem C218_hello (lossy : Bytes → String) (h : Reads lossy) :
    (client (.ok ()) (.ok ())).2.2 = .ok () ∧
    (server lossy (.ok ()) ((client (.ok ()) (.ok ())).2.1.map .datagram)).1 =
      ["Server: Created socket\n", "Server: Received \"hello\"\n"] := by
  refine ⟨rfl, ?_⟩
  have hd : (client (.ok ()) (.ok ())).2.1 = [utf8Encode "hello"] := by decide +kernel
  have hs : showing "hello" = "Server: Received \"hello\"\n" := by decide +kernel
  rw [hd, C218_short_partial lossy _ (by decide +kernel), List.map_cons, h, hs, List.map_nil]

theorem encode_as (n : Nat) : utf8Encode (String.ofList (List.replicate n 'a')) = List.replicate n 97 := by
  rw [Pem.utf8Encode_ofList]
  induction n with
  | zero => rfl
  | succ n ih =>
    rw [List.replicate_succ, List.replicate_succ, ← ih]
    rfl

theorem middle_length (a b : String) {s t : String} (h : a ++ s ++ b = a ++ t ++ b) : s.length = t.length := by
  have h3 := congrArg String.length h
  rw [String.length_append, String.length_append, String.length_append, String.length_append] at h3
  omega

theorem showing_inj {s t : String} (h : showing s = showing t) : s.length = t.length := middle_length _ _ h

theorem long_shown (lossy : Bytes → String) (h : Reads lossy) (n : Nat) (hs : C218_statement lossy) : n ≤ 1024 := by
  have h1 := hs [List.replicate n 97]
  rw [C218_shows_partial, List.map_cons, List.map_cons, List.take_replicate, ← encode_as, ← encode_as, h, h] at h1
  have h3 := showing_inj (List.head_eq_of_cons_eq (List.tail_eq_of_cons_eq h1))
  rw [String.length_ofList, String.length_ofList, List.length_replicate, List.length_replicate] at h3
  omega

/-- **C218** is false: of a datagram of more than 1024 bytes the rest is not shown. -/
theorem C218_false (lossy : Bytes → String) (h : Reads lossy) : ¬ C218_statement lossy :=
  fun hs => absurd (long_shown lossy h 1025 hs) (by decide)

/-- **C218** is false in the other half too: one datagram can look like two. -/
theorem C218_told_false (lossy : Bytes → String) (h : Reads lossy) : ¬ C218_told_statement lossy := by
  intro hs
  have h1 := hs ["a\"\nServer: Received \"b"] ["a", "b"] (by
    rw [C218_short_partial lossy _ (by decide +kernel), C218_short_partial lossy _ (by decide +kernel)]
    simp only [List.map_cons, List.map_nil]
    rw [h, h, h]
    decide +kernel)
  exact absurd (congrArg List.length h1) (by decide)

/-- A datagram and an error, with a `lossy` for ASCII. -/
example : server (fun bs => String.ofList (bs.map (fun b => Char.ofNat b.toNat))) (.ok ()) [.datagram [104, 105], .fails .brokenPipe] =
    (["Server: Created socket\n", "Server: Received \"hi\"\n"], some .brokenPipe) := by decide +kernel

/-- There is a `lossy` like this. -/
example : ∃ lossy, Reads lossy := by
  classical
  refine ⟨fun bs => if h : ∃ s, utf8Encode s = bs then h.choose else "", fun s => ?_⟩
  have h : ∃ t, utf8Encode t = utf8Encode s := ⟨s, rfl⟩
  simp only [h, dif_pos]
  exact utf8Encode_inj h.choose_spec

end Ngfs.UdpTest

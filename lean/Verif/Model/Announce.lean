import Verif.Model.Torrent
import Verif.Model.Tracker

/-!
Model of the commands `trackers` and `announce` of `/repo/src/bin/torrent_client.rs`, from the tracker groups of the torrent on.
`Url::parse` and the resolution of host names (`lookup_host`) are parameters, as they are outside this repository.
-/
namespace Ngfs.Tracker

/-- What is used of a `Url`: the host and the port, either of which may be missing. `Url::port` gives no port where it is the default one
of the scheme. -/
structure Url where
  host : Option String
  port : Option Nat
deriving DecidableEq, Repr

/-- The lines that `trackers` prints, torrent_client.rs 957-964. -/
def trackersCmd (groups : List (List String)) : List String := groups.flatMap fun members => members

/-- The inner loop of `get_tracker_urls`, torrent_client.rs 375-387. -/
def memberUrls (parse : String → Option Url) : List String → List Url
  | [] => []
  | t :: ts =>
    match parse t with
    | some url => url :: memberUrls parse ts
    | none => memberUrls parse ts

/-- `get_tracker_urls`, torrent_client.rs 371-389, without the warnings. -/
def trackerUrls (parse : String → Option Url) : List (List String) → List Url
  | [] => []
  | g :: gs => memberUrls parse g ++ trackerUrls parse gs

/-- An address and port. -/
structure Endpoint where
  ip : Nat
  port : Nat
deriving DecidableEq, Repr

/-- How `announce` fails: torrent_client.rs 969, 237, 247, 253, and then as the exchange does; or it waits for a datagram. -/
inductive AnnounceErr where
  | unknownTracker
  | missingHostOrPort
  | lookup
  | noAddress
  | exchange (e : Err)
  | waiting
deriving DecidableEq, Repr

/-- `run_with_tracker`, torrent_client.rs 233-282, with the datagrams that arrive at the socket and where they come from: what is sent to where,
and the result. The transaction numbers `t1` and `t2` are random. -/
def runWithUrl (resolve : String → Nat → Option (List Endpoint)) (url : Url) (infoHash : Bytes) (listenPort t1 t2 : Nat)
    (inbox : List (Endpoint × Bytes)) : List (Endpoint × Bytes) × Except AnnounceErr Announce :=
  match url.host, url.port with
  | some host, some port =>
    match resolve host port with
    | none => ([], .error .lookup)
    | some [] => ([], .error .noAddress)
    | some (tracker :: _) =>
      match inbox with
      | [] => ([(tracker, connectRequest t1)], .error .waiting)
      | (_, d1) :: rest =>
        match checkConnectResponse t1 d1 with
        | .error e => ([(tracker, connectRequest t1)], .error (.exchange e))
        | .ok connectionId =>
          let sent := [(tracker, connectRequest t1), (tracker, announceRequest connectionId t2 infoHash listenPort)]
          match rest with
          | [] => (sent, .error .waiting)
          | (_, d2) :: _ =>
            match parseAnnounce (receive 4096 d2) with
            | .error e => (sent, .error (.exchange e))
            | .ok a => (sent, .ok a)
  | _, _ => ([], .error .missingHostOrPort)

/-- `announce`, torrent_client.rs 965-972. -/
def announceCmd (parse : String → Option Url) (resolve : String → Nat → Option (List Endpoint)) (groups : List (List String)) (trackerNo : Nat)
    (infoHash : Bytes) (listenPort t1 t2 : Nat) (inbox : List (Endpoint × Bytes)) : List (Endpoint × Bytes) × Except AnnounceErr Announce :=
  match (trackerUrls parse groups)[trackerNo]? with
  | none => ([], .error .unknownTracker)
  | some url => runWithUrl resolve url infoHash listenPort t1 t2 inbox

end Ngfs.Tracker

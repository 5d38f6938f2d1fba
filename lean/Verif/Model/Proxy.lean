import Verif.Model.Io

/-! Model of `proxy_loop`, `/repo/src/bin/proxy.rs` 58-94. The delay (88-90) and the totals that are printed are left out. -/
namespace Ngfs.Proxy
open Io

/-- Where the loop is in the end. -/
inductive Outcome where
  /-- in `read`, 63, and nothing comes -/
  | reading
  /-- in `write_all`, 76, and nothing is taken -/
  | writing
  /-- 64-67 -/
  | readError (k : IoKind)
  /-- 68-71 -/
  | readEof
  /-- 77-80 -/
  | writeError (k : IoKind)
deriving DecidableEq

/-- The loop, 62-93. -/
def loop (bufSize : Nat) : Nat → Reader → Transport → Outcome × Transport
  | 0, _, w => (.reading, w)
  | fuel + 1, r, w =>
    match r.read (scriptSize r.t.reads + 1) bufSize with
    | (.pending, _) => (.reading, w)
    | (.ready (.error k), _) => (.readError k, w)
    | (.ready (.ok []), _) => (.readEof, w)
    | (.ready (.ok (b :: d)), r') =>
      match writeAll w (b :: d) with
      | (.pending, w') => (.writing, w')
      | (.ready (.error k), w') => (.writeError k, w')
      | (.ready (.ok ()), w') => loop bufSize fuel r' w'

/-- `proxy_loop`, 58-94. Every round but the last takes a byte of what is to come. -/
def proxyLoop (bufSize : Nat) (reader writer : Transport) : Outcome × Transport :=
  loop bufSize (scriptSize reader.reads + 1) ⟨reader, []⟩ writer

/-- What the receiver behind `writer` notices in the end: when `proxy_loop` returns, the write half is dropped, which ends the direction in an
orderly way (tokio's `OwnedWriteHalf`). -/
def Outcome.ends : Outcome → Bool
  | .reading => false
  | .writing => false
  | _ => true

end Ngfs.Proxy

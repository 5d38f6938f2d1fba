import Verif.Model.Libp2pTls

/-!
Model of the times in the certificate of a libp2p host, `/repo/src/libp2p/tls.rs` 123-125. The calendar and the format are those of `chrono`
(the proleptic Gregorian calendar, no leap seconds), written here as counting years and months off from 1970.
-/
namespace Ngfs.X509

/-- Leap years. No counterpart in the code (chrono). -/
def isLeap (y : Nat) : Bool := (y % 4 == 0 && y % 100 != 0) || y % 400 == 0

/-- The days of a year. No counterpart in the code (chrono). -/
def yearDays (y : Nat) : Nat := if isLeap y then 366 else 365

/-- The days of a month. No counterpart in the code (chrono). -/
def monthDays (y m : Nat) : Nat :=
  if m = 2 then (if isLeap y then 29 else 28) else if m = 4 ∨ m = 6 ∨ m = 9 ∨ m = 11 then 30 else 31

/-- Years counted off from `y`, `d` days after its beginning: the year, and the day in it from 0. No counterpart in the code (chrono). -/
def yearOf : Nat → Nat → Nat → Nat × Nat
  | 0, y, d => (y, d)
  | fuel + 1, y, d => if d < yearDays y then (y, d) else yearOf fuel (y + 1) (d - yearDays y)

/-- Months counted off from `m`, `d` days after its beginning: the month, and the day in it from 0. No counterpart in the code (chrono). -/
def monthOf (y : Nat) : Nat → Nat → Nat → Nat × Nat
  | 0, m, d => (m, d)
  | fuel + 1, m, d => if d < monthDays y m then (m, d) else monthOf y fuel (m + 1) (d - monthDays y m)

/-- A number with two digits, as `%m`, `%d`, `%H`, `%M` and `%S` give it (tls.rs 124-125). -/
def twoDigits (n : Nat) : List Char := [Nat.digitChar (n / 10), Nat.digitChar (n % 10)]

/-- A year, as `%Y` gives it (tls.rs 124-125): four digits, beyond them with a sign. -/
def yearText (y : Nat) : List Char :=
  if y < 10000 then twoDigits (y / 100) ++ twoDigits (y % 100) else '+' :: Nat.toDigits 10 y

/-- The text of the moment `t` seconds after the beginning of 1970, with the format `%Y%m%d%H%M%SZ`, tls.rs 124-125. -/
def timeText (t : Nat) : List Char :=
  let days := t / 86400
  let seconds := t % 86400
  let (y, d) := yearOf (days + 1) 1970 days
  let (m, d) := monthOf y 11 1 d
  yearText y ++ twoDigits m ++ twoDigits (d + 1) ++ twoDigits (seconds / 3600) ++ twoDigits (seconds / 60 % 60) ++
    twoDigits (seconds % 60) ++ ['Z']

/-- `not_before`, tls.rs 124. -/
def notBeforeText (now : Nat) : List Char := timeText (now - 3600)

/-- `not_after`, tls.rs 125. -/
def notAfterText (now : Nat) : List Char := timeText (now + 10 * 365 * 24 * 3600)

/-- `generate_certificate`, tls.rs 57-65, at the moment `now` (at least an hour after the beginning of 1970). -/
def generateCertificateAt (now : Nat) (x509KeyPair hostKeyPair : KeyPair) : Except GErr Bytes :=
  generateCertificate (String.ofList (notBeforeText now)) (String.ofList (notAfterText now)) x509KeyPair hostKeyPair

end Ngfs.X509

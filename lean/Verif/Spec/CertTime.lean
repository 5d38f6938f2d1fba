import Verif.Model.X509

/-! The times in a certificate (RFC 5280, 4.1.2.5.2): `YYYYMMDDHHMMSSZ`, a moment of the Gregorian calendar in UTC. -/
namespace Ngfs.Spec

/-- The number that a text of decimal digits stands for. -/
def decimalNumber (cs : List Char) : Option Nat :=
  if cs.all (fun c => '0' ≤ c && c ≤ '9') then some (cs.foldl (fun n c => 10 * n + (c.toNat - 48)) 0) else none

/-- Every fourth year is a leap year, but not the hundredth, but the four hundredth. -/
def LeapYear (y : Nat) : Prop := 4 ∣ y ∧ (100 ∣ y → 400 ∣ y)

/-- The days from the beginning of the year 0 to the beginning of the year `y`: one more for each leap year. -/
def daysToYear (y : Nat) : Nat := 365 * y + (y + 3) / 4 + (y + 399) / 400 - (y + 99) / 100

/-- The days from the beginning of a year without a leap day to the beginning of each month. -/
def monthStarts : List Nat := [0, 31, 59, 90, 120, 151, 181, 212, 243, 273, 304, 334, 365]

/-- There is such a day in the calendar, and it is the `n`th since the beginning of the year 0, counted from 0. -/
def DayNumber (y m d n : Nat) : Prop :=
  ∃ start next leap after, 1 ≤ m ∧ monthStarts[m - 1]? = some start ∧ monthStarts[m]? = some next ∧
    (LeapYear y ∧ leap = 1 ∨ ¬ LeapYear y ∧ leap = 0) ∧ after = (if 2 < m then leap else 0) ∧
    1 ≤ d ∧ d ≤ next - start + (if m = 2 then leap else 0) ∧ n = daysToYear y + start + after + (d - 1)

/-- The beginning of the year 1970 is this many days after that of the year 0. -/
def epochDay : Nat := 719528

/-- The text of a certificate for the moment `t` seconds after the beginning of 1970. -/
def TimeText (text : List Char) (t : Nat) : Prop :=
  ∃ ys ms ds hs mins ss y m d h min s n, text = ys ++ (ms ++ (ds ++ (hs ++ (mins ++ (ss ++ ['Z']))))) ∧
    ys.length = 4 ∧ ms.length = 2 ∧ ds.length = 2 ∧ hs.length = 2 ∧ mins.length = 2 ∧ ss.length = 2 ∧
    decimalNumber ys = some y ∧ decimalNumber ms = some m ∧ decimalNumber ds = some d ∧ decimalNumber hs = some h ∧
    decimalNumber mins = some min ∧ decimalNumber ss = some s ∧
    DayNumber y m d n ∧ h < 24 ∧ min < 60 ∧ s < 60 ∧
    t + 86400 * epochDay = 86400 * n + 3600 * h + 60 * min + s

/-- The moment that a time of a certificate is. In a `UTCTime` the year has two digits, those from 50 are of the last century (4.1.2.5.1). -/
def TimeIs : X509.Time → Nat → Prop
  | .generalizedTime text, t => TimeText text.toList t
  | .utcTime text, t => ∃ yy, decimalNumber (text.toList.take 2) = some yy ∧
      TimeText ((if 50 ≤ yy then ['1', '9'] else ['2', '0']) ++ text.toList) t

/-- The certificate is valid at the moment `t`: both ends of the period belong to it (4.1.2.5). -/
def ValidAt (c : X509.Certificate) (t : Nat) : Prop :=
  ∃ a b, TimeIs c.tbsCertificate.validity.notBefore a ∧ TimeIs c.tbsCertificate.validity.notAfter b ∧ a ≤ t ∧ t ≤ b

/-- The beginning of 2050, in seconds after that of 1970. -/
def startOf2050 : Nat := 2524608000

/-- Times before 2050 are written as `UTCTime`, the others as `GeneralizedTime` (4.1.2.5). -/
def RightForm : X509.Time → Nat → Prop
  | .utcTime _, t => t < startOf2050
  | .generalizedTime _, t => startOf2050 ≤ t

end Ngfs.Spec

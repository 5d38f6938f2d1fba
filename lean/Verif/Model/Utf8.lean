import Verif.Model.Basic

/-!
Text. Rust's `String`/`&str` is Lean's `String`; both are byte strings that are valid UTF-8.
`String::from_utf8` / `str::from_utf8` is `utf8Decode`, `as_bytes` is `utf8Encode`.
(Trusted: Rust's and Lean's notions of valid UTF-8 coincide: Unicode scalar values, shortest form.)
-/
namespace Ngfs

/-- `String::from_utf8` / `std::str::from_utf8`. -/
def utf8Decode (bs : Bytes) : Option String := String.fromUTF8? ⟨bs.toArray⟩

/-- `str::as_bytes`. -/
def utf8Encode (s : String) : Bytes := s.toByteArray.data.toList

end Ngfs

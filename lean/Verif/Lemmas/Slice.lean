import Verif.Lemmas.Basic
import Verif.Model.Slice
import Verif.Model.Utf8

namespace Ngfs

theorem slice_mid (pre mid post : Bytes) :
    slice (pre ++ mid ++ post) pre.length (pre.length + mid.length) = mid := by
  simp [slice, List.append_assoc]

theorem slice_mid' (pre mid post : Bytes) (a b : Nat) (ha : a = pre.length) (hb : b = pre.length + mid.length) :
    slice (pre ++ mid ++ post) a b = mid := by
  subst ha hb; exact slice_mid pre mid post

theorem slice_length {data : Bytes} {a b : Nat} (hb : b ≤ data.length) :
    (slice data a b).length = b - a := by
  simp [slice]; omega

/-- Cutting a list at two points. -/
theorem split_at_slice {data : Bytes} {a b : Nat} (hab : a ≤ b) :
    data = data.take a ++ slice data a b ++ data.drop b := by
  have h1 : data.take b = data.take a ++ (data.drop a).take (b - a) := by
    rw [← List.take_add, Nat.add_sub_cancel' hab]
  simp only [slice]
  rw [← h1, List.take_append_drop]

theorem drop_eq_slice_append {data : Bytes} {a b : Nat} (hab : a ≤ b) :
    data.drop a = slice data a b ++ data.drop b := by
  simp only [slice]
  have : data.drop b = (data.drop a).drop (b - a) := by
    rw [List.drop_drop]; congr 1; omega
  rw [this, List.take_append_drop]

theorem fromUTF8?_toByteArray (b : ByteArray) (s : String) (h : b = s.toByteArray) :
    String.fromUTF8? b = some s := by
  subst h
  unfold String.fromUTF8?
  rw [dif_pos s.isValidUTF8]
  simp [String.fromUTF8]

@[simp] theorem utf8_round_trip (s : String) : utf8Decode (utf8Encode s) = some s := by
  apply fromUTF8?_toByteArray
  simp [utf8Encode]

theorem utf8_decode_some {bs : Bytes} {s : String} (h : utf8Decode bs = some s) : utf8Encode s = bs := by
  simp only [utf8Decode, utf8Encode, String.fromUTF8?] at *
  split at h
  · simp [String.fromUTF8] at h; subst h; simp
  · cases h

theorem utf8Encode_inj {s t : String} (h : utf8Encode s = utf8Encode t) : s = t := by
  have := utf8_round_trip s
  rw [h, utf8_round_trip] at this
  exact (Option.some.inj this).symm

end Ngfs

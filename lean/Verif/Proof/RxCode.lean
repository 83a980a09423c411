import Verif.Model.RxCode
import Verif.Proof.Utf8Seq
/-! Number packing of the regex byte code. -/
namespace Strpp.Rx

theorem zigzag_toNat (i : Int) (h : i.natAbs < 2 ^ 30) : (zigzag i).toNat = 2 * i.natAbs + if i < 0 then 1 else 0 := by
  unfold zigzag
  rw [BitVec.toNat_ofNat, Nat.mod_eq_of_lt]
  split <;> omega

theorem zagzig_zigzag (i : Int) (h : i.natAbs < 2 ^ 30) : zagzig (zigzag i) = i := by
  have hn := zigzag_toNat i h
  unfold zagzig
  rw [BitVec.toInt_eq_toNat_cond, hn]
  by_cases hi : i < 0
  · rw [if_pos hi, if_pos (by omega), if_pos (by omega)]; omega
  · rw [if_neg hi, if_pos (by omega), if_neg (by omega)]; omega

/-- a value below 2^31 is none of the reserved ones -/
theorem legal_of_lt (v : UCS4) (h : v.toNat < 2 ^ 31) : ucs4IsIllegal v = false := by
  apply not_reserved
  rintro (⟨h1, -⟩ | h1)
  · omega
  · rw [h1] at h; revert h; decide

theorem zigzag_legal (i : Int) (h : i.natAbs < 2 ^ 30) : ucs4IsIllegal (zigzag i) = false := by
  apply legal_of_lt
  rw [zigzag_toNat i h]; split <;> omega

theorem offsetBytes_length (i : Int) : (offsetBytes i).length = utf8LenCh (zigzag i) := put_length _

theorem getOffset_put (pre : List Byte) (i : Int) (rest : List Byte) (h : i.natAbs < 2 ^ 30) :
    getOffset (pre ++ offsetBytes i ++ rest) pre.length = .ok (i, pre.length + (offsetBytes i).length) := by
  unfold getOffset offsetBytes
  rw [get_put pre _ rest (zigzag_legal i h)]
  simp only [res_bind_ok, zagzig_zigzag i h]

theorem wrap32_of (z : Int) (h0 : 0 ≤ z) (h1 : z < 4294967296) : wrap32 z = z.toNat := by
  unfold wrap32; rw [Int.emod_eq_of_lt h0 h1]

theorem getStation_put (pre : List Byte) (i : Int) (rest : List Byte) (h : i.natAbs < 2 ^ 30)
    (h0 : 0 ≤ (pre.length : Int) + i) (h1 : (pre.length : Int) + i < 4294967296) :
    getStation (pre ++ offsetBytes i ++ rest) pre.length =
      .ok (((pre.length : Int) + i).toNat, pre.length + (offsetBytes i).length) := by
  unfold getStation
  rw [getOffset_put pre i rest h]
  simp only [res_bind_ok, wrap32_of _ h0 h1]

/-- the length of a small offset -/
theorem utf8LenCh_small (v : UCS4) (h : v.toNat < 2 ^ 31) :
    utf8LenCh v = if v.toNat < 2 ^ 7 then 1 else if v.toNat < 2 ^ 11 then 2 else if v.toNat < 2 ^ 16 then 3
      else if v.toNat < 2 ^ 21 then 4 else if v.toNat < 2 ^ 26 then 5 else 6 := by
  rw [lenCh_eq, legal_of_lt v h]; simp

theorem offLen (i : Int) (h : i.natAbs < 1024) :
    utf8LenCh (zigzag i) = if i.natAbs < 64 then 1 else 2 := by
  have hn := zigzag_toNat i (by omega)
  rw [utf8LenCh_small _ (by rw [hn]; split <;> omega), hn]
  by_cases hi : i < 0
  · rw [if_pos hi]
    by_cases h64 : i.natAbs < 64
    · rw [if_pos h64, if_pos (by omega)]
    · rw [if_neg h64, if_neg (by omega), if_pos (by omega)]
  · rw [if_neg hi]
    by_cases h64 : i.natAbs < 64
    · rw [if_pos h64, if_pos (by omega)]
    · rw [if_neg h64, if_neg (by omega), if_pos (by omega)]

theorem offsetBytes_len (i : Int) (h : i.natAbs < 1024) :
    (offsetBytes i).length = if i.natAbs < 64 then 1 else 2 := by rw [offsetBytes_length, offLen i h]

theorem offsetBytes_zero : offsetBytes 0 = [0#8] := by decide

/-- a string operand is read back -/
theorem getText_put (pre s rest : List Byte) (h : s.length < 2 ^ 31) :
    getText (pre ++ (utf8Put (BitVec.ofNat 32 s.length) ++ s) ++ rest) pre.length =
      .ok (s, pre.length + (utf8Put (BitVec.ofNat 32 s.length)).length + s.length) := by
  unfold getText
  have hv : (BitVec.ofNat 32 s.length).toNat = s.length := by
    rw [BitVec.toNat_ofNat, Nat.mod_eq_of_lt (by omega)]
  have e : pre ++ (utf8Put (BitVec.ofNat 32 s.length) ++ s) ++ rest =
      pre ++ utf8Put (BitVec.ofNat 32 s.length) ++ (s ++ rest) := by simp [List.append_assoc]
  rw [e, get_put pre _ (s ++ rest) (legal_of_lt _ (by rw [hv]; exact h))]
  simp only [res_bind_ok, hv]
  rw [if_pos (by simp only [List.length_append]; omega)]
  congr 2
  rw [← List.length_append, List.drop_left, List.take_left]

end Strpp.Rx

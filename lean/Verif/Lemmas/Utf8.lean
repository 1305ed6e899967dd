import Verif.Spec.Packet
/-
UTF-8 decoding inverts UTF-8 encoding.
-/
namespace PyNDN
open Spec

theorem ofNat_toNat {n : Nat} (h : n < 256) : (UInt8.ofNat n).toNat = n := by
  simp; omega

theorem utf8Decode_utf8 (c : Nat) (hc : Scalar c) (rest : Bytes) :
    utf8Decode (utf8 c ++ rest) = (utf8Decode rest).map (c :: ·) := by
  unfold utf8 Scalar at *
  by_cases h1 : c < 0x80
  · rw [if_pos h1, List.singleton_append, utf8Decode.eq_def]
    dsimp only
    rw [ofNat_toNat (by omega), if_pos h1]
  by_cases h2 : c < 0x800
  · rw [if_neg h1, if_pos h2, utf8Decode.eq_def]
    dsimp only [List.cons_append, List.nil_append]
    have e0 : (UInt8.ofNat (0xc0 + c / 64)).toNat = 0xc0 + c / 64 := ofNat_toNat (by omega)
    have e1 : (UInt8.ofNat (0x80 + c % 64)).toNat = 0x80 + c % 64 := ofNat_toNat (by omega)
    rw [e0, if_neg (by omega), if_neg (by omega), if_pos (by omega)]
    have i1 : isCont (UInt8.ofNat (0x80 + c % 64)) = true := by unfold isCont; rw [e1]; simp; omega
    rw [if_pos i1, e1]
    have : (192 + c / 64 - 192) * 64 + (128 + c % 64 - 128) = c := by omega
    rw [this]
  by_cases h3 : c < 0x10000
  · rw [if_neg h1, if_neg h2, if_pos h3, utf8Decode.eq_def]
    dsimp only [List.cons_append, List.nil_append]
    have e0 : (UInt8.ofNat (0xe0 + c / 4096)).toNat = 0xe0 + c / 4096 := ofNat_toNat (by omega)
    have e1 : (UInt8.ofNat (0x80 + c / 64 % 64)).toNat = 0x80 + c / 64 % 64 := ofNat_toNat (by omega)
    have e2 : (UInt8.ofNat (0x80 + c % 64)).toNat = 0x80 + c % 64 := ofNat_toNat (by omega)
    rw [e0, if_neg (by omega), if_neg (by omega), if_neg (by omega), if_pos (by omega)]
    have i1 : isCont (UInt8.ofNat (0x80 + c / 64 % 64)) = true := by unfold isCont; rw [e1]; simp; omega
    have i2 : isCont (UInt8.ofNat (0x80 + c % 64)) = true := by unfold isCont; rw [e2]; simp; omega
    have : (224 + c / 4096 - 224) * 4096 + (128 + c / 64 % 64 - 128) * 64 + (128 + c % 64 - 128) = c := by
      omega
    rw [e1, e2, this, i1, i2, if_pos]
    simp
    omega
  · rw [if_neg h1, if_neg h2, if_neg h3, utf8Decode.eq_def]
    dsimp only [List.cons_append, List.nil_append]
    have e0 : (UInt8.ofNat (0xf0 + c / 262144)).toNat = 0xf0 + c / 262144 := ofNat_toNat (by omega)
    have e1 : (UInt8.ofNat (0x80 + c / 4096 % 64)).toNat = 0x80 + c / 4096 % 64 := ofNat_toNat (by omega)
    have e2 : (UInt8.ofNat (0x80 + c / 64 % 64)).toNat = 0x80 + c / 64 % 64 := ofNat_toNat (by omega)
    have e3 : (UInt8.ofNat (0x80 + c % 64)).toNat = 0x80 + c % 64 := ofNat_toNat (by omega)
    rw [e0, if_neg (by omega), if_neg (by omega), if_neg (by omega), if_neg (by omega), if_pos (by omega)]
    have i1 : isCont (UInt8.ofNat (0x80 + c / 4096 % 64)) = true := by unfold isCont; rw [e1]; simp; omega
    have i2 : isCont (UInt8.ofNat (0x80 + c / 64 % 64)) = true := by unfold isCont; rw [e2]; simp; omega
    have i3 : isCont (UInt8.ofNat (0x80 + c % 64)) = true := by unfold isCont; rw [e3]; simp; omega
    have : (240 + c / 262144 - 240) * 262144 + (128 + c / 4096 % 64 - 128) * 4096 +
        (128 + c / 64 % 64 - 128) * 64 + (128 + c % 64 - 128) = c := by omega
    rw [e1, e2, e3, this, i1, i2, i3, if_pos]
    simp
    omega

theorem utf8Decode_text (s : List Nat) (h : ∀ c ∈ s, Scalar c) : utf8Decode (s.flatMap utf8) = .ok s := by
  induction s with
  | nil => simp [utf8Decode]
  | cons c s ih =>
    rw [List.flatMap_cons, utf8Decode_utf8 c (h c (by simp)), ih (fun x hx => h x (List.mem_cons_of_mem _ hx))]
    rfl

theorem strOfBlob_text {b : Bytes} (h : IsText b) : strOfBlob b = .ok b := by
  obtain ⟨s, h1, rfl⟩ := h
  unfold strOfBlob
  rw [utf8Decode_text s h1]
  rfl

end PyNDN

import Verif.Model.Crypto

/-! Lemmas on the easy wrappers. -/

namespace Rypt.Crypto

variable {C : Crypto}

theorem aeadEncryptEasy_length (h : C.Lawful) (m k n : Bytes) :
    (C.aeadEncryptEasy m k n).length = m.length + 16 := by
  simp [aeadEncryptEasy, h.aead_ct_len, h.aead_mac_len]

theorem aeadDecryptEasy_encrypt (h : C.Lawful) (m k n : Bytes) :
    C.aeadDecryptEasy (C.aeadEncryptEasy m k n) k n = .ok m := by
  have hl := aeadEncryptEasy_length h m k n
  unfold aeadDecryptEasy
  rw [if_neg (by rw [hl]; unfold AEAD_MAC_LEN; omega)]
  simp only [hl, AEAD_MAC_LEN, Nat.add_sub_cancel]
  have e : m.length = (C.aeadEncrypt k n [] m).1.length := (h.aead_ct_len ..).symm
  unfold aeadEncryptEasy
  simp only
  rw [e, List.take_left, List.drop_left, h.aead_dec_enc]

theorem boxEncryptEasy_length (h : C.Lawful) {m pk sk n ct : Bytes} (he : C.boxEncryptEasy m pk sk n = .ok ct) :
    ct.length = m.length + 16 := by
  unfold boxEncryptEasy at he
  split at he
  · cases he
  · simp only [Res.ok.injEq] at he
    subst he
    simp [h.box_ct_len, h.box_mac_len]

theorem boxDecryptEasy_encrypt (h : C.Lawful) {m pk sk pk' sk' n ct : Bytes}
    (he : C.boxEncryptEasy m pk sk n = .ok ct) (hs : C.boxBeforenm pk' sk' = C.boxBeforenm pk sk) :
    C.boxDecryptEasy ct pk' sk' n = .ok m := by
  have hl := boxEncryptEasy_length h he
  unfold boxEncryptEasy at he
  split at he
  · cases he
  rename_i k hk
  simp only [Res.ok.injEq] at he
  unfold boxDecryptEasy
  rw [if_neg (by rw [hl]; unfold BOX_MAC_LEN; omega)]
  simp only [hs, hk]
  simp only [hl, BOX_MAC_LEN, Nat.add_sub_cancel]
  have e : m.length = (C.boxSeal k n m).1.length := (h.box_ct_len ..).symm
  rw [← he, e, List.take_left, List.drop_left, h.box_open_seal]

end Rypt.Crypto

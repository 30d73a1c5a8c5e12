import Verif.Spec.Pipeline

/-! The chunk converter of the crypto code meets the requirements of the pipeline. -/

namespace Rypt.Pipeline

open StreamCrypto HeaderCrypto

theorem ofCodec_lawful {codec : Codec} (h : codec.crypto.Lawful) : (Converter.ofCodec codec).Lawful where
  keeps_last := by
    intro c c'
    simp only [Converter.ofCodec, convertChunk]
    split
    · intro hc; injection hc with hc; subst hc; rfl
    · split
      · intro hc; cases hc
      · split
        · intro hc; injection hc with hc; subst hc; rfl
        · intro hc; cases hc
  size := by
    intro c c'
    simp only [Converter.ofCodec, convertChunk, inputAsize, outputAsize]
    split
    · intro hc; injection hc with hc; subst hc
      simp [h.aead_ct_len, h.aead_mac_len, AEAD_MAC_LEN]
    · split
      · intro hc; cases hc
      · rename_i hlen
        split
        · rename_i m hm
          intro hc; injection hc with hc; subst hc
          have := h.aead_dec_len _ _ _ _ _ _ hm
          simp only [List.length_take] at this
          simp only [this]
          omega
        · intro hc; cases hc
  room := by
    intro c c'
    simp only [Converter.ofCodec, convertChunk, inputAsize]
    split
    · intro _; omega
    · split
      · intro hc; cases hc
      · intro _; omega
  peak := by
    intro n
    simp only [Converter.ofCodec, inputAsize, outputAsize]
    split <;> omega

end Rypt.Pipeline

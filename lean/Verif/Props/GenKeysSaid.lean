import Verif.Proofs.GenKeysSaid
import Verif.Props.GenKeys
import Verif.Props.KeyText

/-! Property C111: what key generation shows. -/

namespace Rypt.Props

open GenKeys Filesystem CryptStreams Cli

/-- C111: if messages can be printed, what is shown are the paragraphs of the pairs, in order. The paragraph of a pair has its
number, its public key in a form in which it can be given to the program, the names of its files, and an error iff the run says so.
Without `--force`, an error after the name of the private key file means that the public key file is complete. -/
theorem keygen_says (sha512 : Bytes → Bytes) (hlen : ∀ b, (sha512 b).length = 64) (force : Bool)
    (pairs : List (KeyPairOutputStreams × Bytes × Bytes)) (h32 : ∀ q ∈ pairs, q.2.1.length = 32) (w w' : World)
    (hw : Spec.WritesWork w.term) (failed : List Nat) (h : generateKeyPairFiles sha512 force pairs w = (.ok failed, w')) :
    ∃ shown : List (PairEnd × List UI.Act), shown.length = pairs.length ∧ w'.term.log = w.term.log ++ shown.flatMap Prod.snd ∧
      ∀ i s pk sk e l, pairs[i]? = some (s, pk, sk) → shown[i]? = some (e, l) →
        (i ∉ failed ↔ e = .written) ∧ PairShown sha512 w.term.verbosity (i + 1) pairs.length s pk e l ∧
          (force = false → w.fs.WF → e = .privateFails → ∀ p, s.publicKeyStream = some (.file p) →
            w'.fs.holds p (Text.encode (KeyText.publicKeyText sha512 pk))) := by
  have hsha : ∀ b, sha512 b ≠ [] := fun b h => by have := hlen b; simp [h] at this
  obtain ⟨shown, h1, h2, h3⟩ := genPairs_shows hsha pairs h32 hw h
  refine ⟨shown, h1, h2.log, fun i s pk sk e l hi he => ?_⟩
  have := h3 i s pk sk e l hi he
  rw [Nat.zero_add] at this
  exact this

/-- C111: a text that shows the public key is the text in the file of the public key, and the end of the text in the file of the
private key; so there is one such text. -/
theorem shown_key_is_filed (sha512 : Bytes → Bytes) (hlen : ∀ b, (sha512 b).length = 64) (text : List Char) (pk : Bytes)
    (h : ShowsKey sha512 text pk) :
    KeyText.publicKeyText sha512 pk = text ++ ['\n'] ∧
      ∀ sk priv, KeyText.privateKeyText sha512 pk sk = .ok priv → ∃ secret, priv = secret ++ text ++ ['\n'] := by
  have hsha : ∀ b, sha512 b ≠ [] := fun b h => by have := hlen b; simp [h] at this
  have h1 := h.2 false
  have h2 : Hex.tryParseHexStringChecksummed sha512 text = .ok pk := by
    rw [KeyText.fromHex32, KeyText.tryParseHex] at h1
    simp only [Bool.false_eq_true, if_false] at h1
    cases hp : Hex.tryParseHexStringChecksummed sha512 text with
    | error e => rw [hp] at h1; cases h1
    | ok b =>
      rw [hp] at h1
      simp only [KeyText.liftHex, Res.bind_ok] at h1
      split at h1
      · cases h1; rfl
      · cases h1
  have h3 := checksummed_unique sha512 text _ pk h2 (Hex.parse_checksummed sha512 pk (hsha pk))
  have hclean : ∀ l : List Char, (∀ c ∈ l, Text.isWhitespace c = false) → l.filter (fun c => !Text.isWhitespace c) = l := fun l hl => by
    rw [List.filter_eq_self]
    intro c hc
    rw [hl c hc]; rfl
  rw [hclean _ h.1, hclean _ (KeyText.checksummed_clean sha512 pk (hsha pk))] at h3
  subst h3
  refine ⟨rfl, fun sk priv hpriv => ?_⟩
  rw [KeyText.privateKeyText] at hpriv
  split at hpriv
  · cases hpriv
    exact ⟨_, by rw [KeyText.publicKeyText, List.append_assoc]⟩
  · cases hpriv

/-- C111: with `--quiet`, only errors are shown, one for each pair that failed; with `--quiet` twice, nothing. -/
theorem quiet_keygen_says (sha512 : Bytes → Bytes) (hlen : ∀ b, (sha512 b).length = 64) (force : Bool)
    (pairs : List (KeyPairOutputStreams × Bytes × Bytes)) (h32 : ∀ q ∈ pairs, q.2.1.length = 32) (w w' : World)
    (hw : Spec.WritesWork w.term) (failed : List Nat) (h : generateKeyPairFiles sha512 force pairs w = (.ok failed, w')) :
    (w.term.verbosity = -1 →
      w'.term.log = w.term.log ++ List.replicate failed.length (.wrote "rypt: Error\n".toList)) ∧
    (w.term.verbosity < -1 → w'.term.log = w.term.log) := by
  have hsha : ∀ b, sha512 b ≠ [] := fun b h => by have := hlen b; simp [h] at this
  refine ⟨fun hv => ?_, fun hv => ?_⟩
  · have hrep : ∀ (a : UI.Act) (l : List Nat), (l.flatMap fun _ => [a]) = List.replicate l.length a := by
      intro a l
      induction l with
      | nil => rfl
      | cons i l ih => rw [List.flatMap_cons, ih]; rfl
    rw [genPairs_quiet_shows hsha pairs h32 hw (by omega) h, errorAt, if_pos (by omega), hrep]
  · rw [genPairs_quiet_shows hsha pairs h32 hw (by omega) h, errorAt, if_neg (by omega)]
    simp

/-! ### Samples -/

/-- A hash with 64 bytes for the pairs of `rypt -g a b`. -/
example : (∀ b, (sampleHash b).length = 64) ∧ (∀ q ∈ keygenPairs, q.2.1.length = 32) ∧ Spec.WritesWork keygenWorld.term :=
  ⟨sampleHash_length, by decide +kernel, by rintro f ⟨⟩⟩

/-- `rypt -g a b` when `b` exists. -/
example : (generateKeyPairFiles sampleHash false keygenPairs keygenWorld).1 = .ok [1] ∧
    (generateKeyPairFiles sampleHash false keygenPairs keygenWorld).2.term.log =
      [.wrote "Keypair 1/2:\n".toList,
        .wrote ("    Public key: ".toList ++ (List.replicate 32 ['0', '1']).flatten ++ ['\n']),
        .wrote "    Public key file: a.pub\n".toList, .wrote "    Private key file: a\n".toList, .wrote "\n".toList,
        .wrote "Keypair 2/2:\n".toList,
        .wrote ("    Public key: ".toList ++ (List.replicate 32 ['0', '5']).flatten ++ ['\n']),
        .wrote "    Public key file: b.pub\n".toList, .wrote "    Private key file: b\n".toList, .wrote "rypt: Error\n".toList,
        .wrote "\n".toList] := by
  decide +kernel

/-- The same with `--quiet`. -/
example : (generateKeyPairFiles sampleHash false keygenPairs { keygenWorld with term := { keygenTerm with verbosity := -1 } }).2.term.log =
    [.wrote "rypt: Error\n".toList] := by
  decide +kernel

example : ShowsKey sampleHash (Hex.toHexStringChecksummed sampleHash samplePair.1) samplePair.1 :=
  ⟨by decide +kernel, by decide +kernel⟩

end Rypt.Props

import Verif.Model.HeaderCrypto
import Verif.Proofs.Shamir
import Mathlib.Data.List.Perm.Subperm

/-! Lemmas on `splitKey` and `reconstruct`. -/

namespace Rypt.HeaderCrypto

open Shamir

theorem xorVec_eq {a b : Bytes} (h : a.length = b.length) : xorVec a b = .ok (xorBytes a b) := by
  unfold xorVec xorBytes; rw [if_neg (not_not.mpr h)]

@[simp] theorem xorBytes_length (a b : Bytes) : (xorBytes a b).length = min a.length b.length := by simp [xorBytes]

theorem xorBytes_getElem (a b : Bytes) (i : Nat) (h : i < (xorBytes a b).length) :
    (xorBytes a b)[i] = a[i]'(by simp at h; omega) ^^^ b[i]'(by simp at h; omega) := by simp [xorBytes]

theorem xorBytes_comm (a b : Bytes) : xorBytes a b = xorBytes b a := by
  apply List.ext_getElem
  · simp [Nat.min_comm]
  · intro i h1 h2; simp only [xorBytes_getElem]; exact UInt8.xor_comm _ _

theorem xorBytes_assoc (a b c : Bytes) : xorBytes (xorBytes a b) c = xorBytes a (xorBytes b c) := by
  apply List.ext_getElem
  · simp [Nat.min_assoc]
  · intro i h1 h2; simp only [xorBytes_getElem]; exact UInt8.xor_assoc _ _ _

theorem xorBytes_zero {a : Bytes} {n : Nat} (h : a.length ≤ n) : xorBytes a (List.replicate n 0) = a := by
  apply List.ext_getElem
  · simpa using h
  · intro i h1 h2; simp [xorBytes_getElem]

theorem zero_xorBytes {a : Bytes} {n : Nat} (h : a.length ≤ n) : xorBytes (List.replicate n 0) a = a := by
  rw [xorBytes_comm, xorBytes_zero h]

theorem xorBytes_self (a : Bytes) : xorBytes a a = List.replicate a.length 0 := by
  apply List.ext_getElem
  · simp
  · intro i h1 h2; simp [xorBytes_getElem]

/-- XOR of a list of parts into an accumulator. -/
def xorSum (acc : Bytes) (parts : List Bytes) : Bytes := parts.foldl xorBytes acc

theorem xorAll_eq {acc : Bytes} {l : List (Nat × Bytes)} (h : ∀ p ∈ l, p.2.length = acc.length) :
    xorAll acc l = .ok (xorSum acc (l.map Prod.snd)) := by
  induction l generalizing acc with
  | nil => rfl
  | cons p l ih =>
    have hp := h p List.mem_cons_self
    rw [xorAll, xorVec_eq hp.symm]
    simp only [Res.bind_ok]
    rw [ih]
    · rfl
    · intro q hq
      rw [h q (List.mem_cons_of_mem _ hq)]; simp [hp]

theorem xorSum_perm {acc : Bytes} {l l' : List Bytes} (h : l.Perm l') : xorSum acc l = xorSum acc l' := by
  unfold xorSum
  apply h.foldl_eq'
  intro x _ y _ z
  rw [xorBytes_assoc, xorBytes_assoc, xorBytes_comm x y]

theorem fill_length (t : Tape) (n : Nat) : (t.fill n).1.length = n := by simp [Tape.fill]

/-- The XOR split always succeeds; its parts XOR to the start value. -/
theorem xorSplit_eq (len k : Nat) : ∀ (xp : Bytes) (tape : Tape), xp.length = len →
    ∃ parts, xorSplit len k xp tape = .ok (parts, fun i => tape (k * len + i)) ∧ parts.length = k + 1 ∧
      (∀ p ∈ parts, p.length = len) ∧ ∀ acc : Bytes, acc.length = len → xorSum acc parts = xorBytes acc xp := by
  induction k with
  | zero =>
    intro xp tape h
    refine ⟨[xp], by simp [xorSplit], rfl, by simpa using h, fun acc _ => rfl⟩
  | succ k ih =>
    intro xp tape h
    have hv : (tape.fill len).1.length = len := fill_length _ _
    obtain ⟨parts, he, hl, hp, hx⟩ := ih (xorBytes xp (tape.fill len).1) (tape.fill len).2 (by simp [h, hv])
    refine ⟨(tape.fill len).1 :: parts, ?_, by simp [hl], ?_, ?_⟩
    · rw [xorSplit]
      simp only [Res.pure_def]
      rw [xorVec_eq (by rw [h, hv])]
      simp only [Res.bind_ok]
      rw [he]
      simp only [Res.bind_ok, Tape.fill]
      congr 2
      funext i
      congr 1
      rw [Nat.succ_mul]; omega
    · intro p hp'
      rcases List.mem_cons.mp hp' with rfl | hp'
      · exact hv
      · exact hp p hp'
    · intro acc hacc
      show xorSum (xorBytes acc (tape.fill len).1) parts = _
      rw [hx _ (by simp [hacc, hv]), xorBytes_comm xp, ← xorBytes_assoc, xorBytes_assoc acc, xorBytes_self,
        hv, xorBytes_zero (by omega)]

/-- A valid request for key parts, and what the code's size guard computes. -/
def SplitValid (len n t : Nat) : Prop :=
  1 ≤ t ∧ t ≤ n ∧ wrap64 (len * n) < HeaderIO.MAX_HEADER_LEN ∧ (1 < t → t < n → n ≤ 255)

/-- How far the tape is consumed. -/
def splitConsumed (len n t : Nat) : Nat := if t = 1 then 0 else if t = n then (n - 1) * len else (t - 1) * len

theorem splitKey_ok_iff {key : Bytes} {n t : Nat} {tape : Tape} {r} (h : splitKey key n t tape = .ok r) :
    SplitValid key.length n t := by
  unfold splitKey at h
  split at h
  · cases h
  split at h
  · cases h
  split at h
  · cases h
  rename_i h1 h2 h3
  refine ⟨by omega, by omega, by omega, ?_⟩
  intro h4 h5
  rw [if_neg (by omega), if_neg (by omega)] at h
  by_contra h6
  unfold createSecretShares at h
  rw [if_neg (by omega), if_neg (by omega), if_pos (by unfold MAX_SHARES; omega)] at h
  cases h

theorem splitKey_eq {key : Bytes} {n t : Nat} (tape : Tape) (h : SplitValid key.length n t) :
    ∃ parts, splitKey key n t tape = .ok (parts, fun i => tape (splitConsumed key.length n t + i)) ∧
      parts.length = n ∧ (∀ p ∈ parts, p.length = key.length) ∧
      (t = 1 → parts = List.replicate n key) ∧
      (t ≠ 1 → t = n → ∀ acc : Bytes, acc.length = key.length → xorSum acc parts = xorBytes acc key) ∧
      (t ≠ 1 → t ≠ n → n ≤ 255 ∧
        parts = (List.range n).map (fun i => Gf256.toBytes (shareAt key tape (t - 1) (xOf i)))) := by
  obtain ⟨h1, h2, h3, h4⟩ := h
  unfold splitKey splitConsumed
  rw [if_neg (by omega), if_neg (by omega), if_neg (by omega)]
  by_cases ht : t = 1
  · rw [if_pos ht, if_pos ht]
    refine ⟨_, by simp, by simp, ?_, fun _ => rfl, fun h => absurd ht h, fun h => absurd ht h⟩
    intro p hp; rw [List.eq_of_mem_replicate hp]
  rw [if_neg ht, if_neg ht]
  by_cases htn : t = n
  · rw [if_pos htn, if_pos htn]
    obtain ⟨parts, he, hl, hp, hx⟩ := xorSplit_eq key.length (n - 1) key tape rfl
    exact ⟨parts, he, by omega, hp, fun h => absurd h ht, fun _ _ => hx, fun _ h => absurd htn h⟩
  · rw [if_neg htn, if_neg htn]
    have hn := h4 (by omega) (by omega)
    refine ⟨_, createSecretShares_eq tape h1 h2 hn, by simp, ?_, fun h => absurd h ht, fun _ h => absurd h htn,
      fun _ _ => ⟨hn, rfl⟩⟩
    intro p hp
    obtain ⟨i, -, rfl⟩ := List.mem_map.mp hp
    simp [Gf256.toBytes]

/-- Reconstruction from any selection of labelled parts. -/
theorem reconstruct_split {key : Bytes} {n t : Nat} {tape tape' : Tape} {parts : List Bytes}
    (hs : splitKey key n t tape = .ok (parts, tape')) (sel : List (Nat × Bytes))
    (hnd : (sel.map Prod.fst).Nodup) (hsel : ∀ p ∈ sel, parts[p.1]? = some p.2) :
    reconstruct (oneToZero t) n sel = .ok (if t ≤ sel.length then some key else none) := by
  obtain ⟨parts', hs', hl, hlen, hor, hand, hsh⟩ := splitKey_eq tape (splitKey_ok_iff hs)
  obtain ⟨h1, h2, -, -⟩ := splitKey_ok_iff hs
  rw [hs] at hs'
  injection hs' with hs'
  injection hs' with hs' _
  subst hs'
  have hmem : ∀ p ∈ sel, p.2 ∈ parts := fun p hp => List.mem_of_getElem? (hsel p hp)
  have hlt : ∀ p ∈ sel, p.1 < n := fun p hp => by
    have := (List.getElem?_eq_some_iff.mp (hsel p hp)).1; omega
  unfold reconstruct oneToZero
  by_cases ht : t = 1
  · subst ht
    simp only [if_true]
    rw [if_pos (by omega)]
    rcases List.eq_nil_or_concat sel with rfl | ⟨l, p, rfl⟩
    · rfl
    · rw [if_pos (by simp)]
      have := hmem p (by simp)
      rw [hor rfl] at this
      simp [List.eq_of_mem_replicate this]
  rw [if_neg ht, if_neg (by omega)]
  by_cases htn : t = n
  · rw [if_pos htn]
    by_cases hlen' : sel.length = t
    · rw [if_pos hlen', if_pos (by omega)]
      match sel with
      | [] => simp at hlen'; omega
      | q :: rest =>
        simp only
        have hall : ∀ p ∈ q :: rest, p.2.length = (List.replicate q.2.length (0 : UInt8)).length := by
          intro p hp
          rw [hlen _ (hmem p hp), List.length_replicate, hlen _ (hmem q List.mem_cons_self)]
        rw [xorAll_eq hall]
        simp only [Res.bind_ok, Res.pure_def]
        congr 2
        have hperm : ((q :: rest).map Prod.snd).Perm parts := by
          have h1 : ((q :: rest).map Prod.fst).Perm (List.range n) := by
            apply (List.subperm_of_subset hnd _).perm_of_length_le
            · simp only [List.length_range, List.length_map]; omega
            · intro i hi
              obtain ⟨p, hp, rfl⟩ := List.mem_map.mp hi
              exact List.mem_range.mpr (hlt p hp)
          have h2 : (q :: rest).map Prod.snd = ((q :: rest).map Prod.fst).map (fun i => parts.getD i []) := by
            rw [List.map_map]
            apply List.map_congr_left
            intro p hp
            simp [hsel p hp]
          have h3 : parts = (List.range n).map (fun i => parts.getD i []) := by
            apply List.ext_getElem
            · simp [hl]
            · intro i h1 h2; simp [h1]
          rw [h2]
          conv_rhs => rw [h3]
          exact h1.map _
        rw [xorSum_perm hperm, hand ht htn _ (by simp [hlen _ (hmem q List.mem_cons_self)]), zero_xorBytes]
        rw [hlen _ (hmem q List.mem_cons_self)]
    · rw [if_neg hlen', if_neg]
      have : sel.length ≤ n := by
        have : (sel.map Prod.fst).length ≤ (List.range n).length := by
          apply (List.subperm_of_subset hnd _).length_le
          intro i hi
          obtain ⟨p, hp, rfl⟩ := List.mem_map.mp hi
          exact List.mem_range.mpr (hlt p hp)
        simpa using this
      omega
  · rw [if_neg htn]
    obtain ⟨hn, hparts⟩ := hsh ht htn
    by_cases hle : t ≤ sel.length
    · rw [recover_selection tape h1 hn sel hnd hle, if_pos hle]
      intro p hp
      refine ⟨hlt p hp, ?_⟩
      have := hsel p hp
      rw [hparts, List.getElem?_map, List.getElem?_range (hlt p hp)] at this
      simpa using this.symm
    · rw [if_neg hle]
      have : recoverSecret sel t = .err (.notEnoughShares sel.length t) := by
        unfold recoverSecret
        rw [if_neg (by omega), if_neg (not_not.mpr hnd), if_pos (by omega)]
      rw [this]

end Rypt.HeaderCrypto

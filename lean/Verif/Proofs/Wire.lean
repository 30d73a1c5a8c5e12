import Verif.Spec.Wire
import Verif.Proofs.Later
import Verif.Proofs.File
import Mathlib.Tactic.Rename

/-! Helpers for C127. -/

namespace Rypt.Proto

open Spec

/-! ### Fields -/

def toWire : Nat × Val → Nat × WireVal
  | (t, .number n) => (t, .varint n)
  | (t, .eight b) => (t, .fixed64 (leNat b))
  | (t, .bytes b) => (t, .bytes b)
  | (t, .four b) => (t, .fixed32 (leNat b))

theorem num_decode {n : Nat} {bs : Bytes} (h : Num n bs) (rest : Bytes) : decodeVarint (bs ++ rest) = some (n, rest) := by
  obtain ⟨m, hm, hl, rfl⟩ := h
  rw [decodeVarint, base128_decode hm _ _ _ _ hl, Nat.zero_add, Nat.mul_one]

theorem num_pos {n : Nat} {bs : Bytes} (h : Num n bs) : 0 < bs.length := by
  obtain ⟨m, hm, -, -⟩ := h
  cases hm <;> simp

theorem decode_base128 (k : Nat) : ∀ (w acc : Nat) (b : Bytes) (n : Nat) (r : Bytes), decodeVarintAux k w acc b = some (n, r) →
    ∃ m bs, b = bs ++ r ∧ Base128 m bs ∧ bs.length ≤ k ∧ n = (acc + m * w) % 2 ^ 64 := by
  induction k with
  | zero => intro w acc b n r h; simp [decodeVarintAux] at h
  | succ k ih =>
    intro w acc b n r h
    cases b with
    | nil => simp [decodeVarintAux] at h
    | cons x bs =>
      rw [decodeVarintAux] at h
      split_ifs at h with h1
      · cases h
        exact ⟨x.toNat, [x], rfl, .last x h1, by simp, by rw [Nat.mod_eq_of_lt h1]⟩
      · obtain ⟨m, cs, rfl, hm, hl, rfl⟩ := ih _ _ _ _ _ h
        refine ⟨_, x :: cs, rfl, .more x m cs (by omega) hm, by simp; omega, ?_⟩
        have h2 : x.toNat % 128 = x.toNat - 128 := by have := x.toNat_lt; omega
        rw [h2]
        congr 1
        ring

theorem decode_num {b r : Bytes} {n : Nat} (h : decodeVarint b = some (n, r)) : ∃ bs, b = bs ++ r ∧ Num n bs := by
  obtain ⟨m, bs, rfl, hm, hl, rfl⟩ := decode_base128 _ _ _ _ _ _ h
  exact ⟨bs, rfl, m, hm, hl, by rw [Nat.zero_add, Nat.mul_one]⟩

theorem fields_ser {fs : List (Nat × Val)} {b : Bytes} (h : Fields fs b) : Ser b (fs.map toWire) := by
  induction h with
  | nil => exact .nil
  | number tag n k v fs b hk hv _ ih =>
    obtain ⟨h0, ht, hk⟩ := hk
    refine .cons ⟨fun h => ?_, fun rest => ?_⟩ ih
    · have := num_pos hk
      simp only [List.append_eq_nil_iff] at h
      simp [h.1] at this
    · rw [List.append_assoc, parseField, num_decode hk]
      simp only [Option.bind_eq_bind, Option.bind_some]
      rw [if_neg (by omega)]
      have e1 : (8 * tag + 0) / 8 = tag := by omega
      have e2 : (8 * tag + 0) % 8 = 0 := by omega
      rw [e1, e2, if_neg (by omega)]
      simp only [Option.bind_some, num_decode hv, toWire]
  | eight tag k v fs b hk hv _ ih =>
    obtain ⟨h0, ht, hk⟩ := hk
    refine .cons ⟨fun h => ?_, fun rest => ?_⟩ ih
    · have := num_pos hk
      simp only [List.append_eq_nil_iff] at h
      simp [h.1] at this
    · rw [List.append_assoc, parseField, num_decode hk]
      simp only [Option.bind_eq_bind, Option.bind_some]
      rw [if_neg (by omega)]
      have e1 : (8 * tag + 1) / 8 = tag := by omega
      have e2 : (8 * tag + 1) % 8 = 1 := by omega
      rw [e1, e2, if_neg (by omega)]
      simp only
      rw [if_pos (by simp [hv]), List.take_left' hv, List.drop_left' hv, toWire]
  | bytes tag k l v fs b hk hl _ ih =>
    obtain ⟨h0, ht, hk⟩ := hk
    refine .cons ⟨fun h => ?_, fun rest => ?_⟩ ih
    · have := num_pos hk
      simp only [List.append_eq_nil_iff] at h
      simp [h.1.1] at this
    · rw [List.append_assoc, List.append_assoc, parseField, num_decode hk]
      simp only [Option.bind_eq_bind, Option.bind_some]
      rw [if_neg (by omega)]
      have e1 : (8 * tag + 2) / 8 = tag := by omega
      have e2 : (8 * tag + 2) % 8 = 2 := by omega
      rw [e1, e2, if_neg (by omega)]
      simp only [Option.bind_some, num_decode hl]
      rw [if_pos (by simp), List.take_left, List.drop_left, toWire]
  | four tag k v fs b hk hv _ ih =>
    obtain ⟨h0, ht, hk⟩ := hk
    refine .cons ⟨fun h => ?_, fun rest => ?_⟩ ih
    · have := num_pos hk
      simp only [List.append_eq_nil_iff] at h
      simp [h.1] at this
    · rw [List.append_assoc, parseField, num_decode hk]
      simp only [Option.bind_eq_bind, Option.bind_some]
      rw [if_neg (by omega)]
      have e1 : (8 * tag + 5) / 8 = tag := by omega
      have e2 : (8 * tag + 5) % 8 = 5 := by omega
      rw [e1, e2, if_neg (by omega)]
      simp only
      rw [if_pos (by simp [hv]), List.take_left' hv, List.drop_left' hv, toWire]

theorem parse_field {b r : Bytes} {w : Nat × WireVal} (h : parseField b = some (w, r)) : ∃ f, w = toWire f ∧
    ∀ fs, Fields fs r → Fields (f :: fs) b := by
  unfold parseField at h
  obtain ⟨⟨key, b1⟩, h1, h'⟩ := Option.bind_eq_some_iff.1 h
  clear h
  rename' h' => h
  obtain ⟨k, rfl, hk⟩ := decode_num h1
  by_cases c1 : key ≥ 2 ^ 32
  · simp only [c1, if_true, Option.bind_eq_bind, Option.bind_none, reduceCtorEq] at h
  by_cases c2 : key / 8 = 0
  · simp only [c1, c2, if_true, if_false, Option.bind_eq_bind, Option.bind_none, reduceCtorEq] at h
  simp only [c1, c2, if_false, Option.bind_eq_bind] at h
  have start : ∀ j, key % 8 = j → Start (key / 8) j k := by
    intro j hj
    refine ⟨by omega, by omega, ?_⟩
    rwa [show 8 * (key / 8) + j = key by omega]
  split at h
  · rename_i hj
    obtain ⟨⟨n, b2⟩, h2, h'⟩ := Option.bind_eq_some_iff.1 h
    clear h
    rename' h' => h
    obtain ⟨v, rfl, hv⟩ := decode_num h2
    simp only [Option.some.injEq, Prod.mk.injEq] at h
    obtain ⟨rfl, rfl⟩ := h
    refine ⟨(key / 8, .number n), rfl, fun fs hfs => ?_⟩
    rw [← List.append_assoc]
    exact .number _ _ _ _ _ _ (start _ hj) hv hfs
  · rename_i hj
    split_ifs at h with h3
    simp only [Option.some.injEq, Prod.mk.injEq] at h
    obtain ⟨rfl, rfl⟩ := h
    refine ⟨(key / 8, .eight (b1.take 8)), rfl, fun fs hfs => ?_⟩
    have := Fields.eight _ _ (b1.take 8) _ _ (start _ hj) (by rw [List.length_take]; omega) hfs
    rwa [List.append_assoc, List.take_append_drop] at this
  · rename_i hj
    obtain ⟨⟨n, b2⟩, h2, h'⟩ := Option.bind_eq_some_iff.1 h
    clear h
    rename' h' => h
    obtain ⟨l, rfl, hl⟩ := decode_num h2
    simp only at h
    split_ifs at h with h3
    simp only [Option.some.injEq, Prod.mk.injEq] at h
    obtain ⟨rfl, rfl⟩ := h
    refine ⟨(key / 8, .bytes (b2.take n)), rfl, fun fs hfs => ?_⟩
    have := Fields.bytes _ _ l (b2.take n) _ _ (start _ hj) (by rwa [List.length_take, Nat.min_eq_left h3]) hfs
    rwa [List.append_assoc, List.append_assoc, List.take_append_drop] at this
  · rename_i hj
    split_ifs at h with h3
    simp only [Option.some.injEq, Prod.mk.injEq] at h
    obtain ⟨rfl, rfl⟩ := h
    refine ⟨(key / 8, .four (b1.take 4)), rfl, fun fs hfs => ?_⟩
    have := Fields.four _ _ (b1.take 4) _ _ (start _ hj) (by rw [List.length_take]; omega) hfs
    rwa [List.append_assoc, List.take_append_drop] at this
  · cases h

theorem parse_fields (k : Nat) : ∀ (b : Bytes) (ws : List (Nat × WireVal)), parseFields k b = some ws →
    ∃ fs, ws = fs.map toWire ∧ Fields fs b := by
  induction k with
  | zero =>
    intro b ws h
    cases b with
    | nil => simp only [parseFields, Option.some.injEq] at h; subst h; exact ⟨[], rfl, .nil⟩
    | cons x b => simp [parseFields] at h
  | succ k ih =>
    intro b ws h
    cases b with
    | nil => simp only [parseFields, Option.some.injEq] at h; subst h; exact ⟨[], rfl, .nil⟩
    | cons x b =>
      rw [parseFields] at h
      · obtain ⟨⟨f, r⟩, h1, h⟩ := Option.bind_eq_some_iff.1 h
        obtain ⟨ws', h2, h⟩ := Option.bind_eq_some_iff.1 h
        cases h
        obtain ⟨fs, rfl, hfs⟩ := ih _ _ h2
        obtain ⟨f', rfl, hf⟩ := parse_field h1
        exact ⟨f' :: fs, rfl, hf fs hfs⟩
      · simp

/-- A message is split into the fields it consists of. -/
theorem parse_iff {α : Type} {b : Bytes} {f : α → Nat × WireVal → Option α} {a r : α} :
    (parseFields b.length b).bind (fun ws => ws.foldlM f a) = some r ↔ ∃ fs, Fields fs b ∧ (fs.map toWire).foldlM f a = some r := by
  constructor
  · intro h
    obtain ⟨ws, h1, h2⟩ := Option.bind_eq_some_iff.1 h
    obtain ⟨fs, rfl, hfs⟩ := parse_fields _ _ _ h1
    exact ⟨fs, hfs, h2⟩
  · rintro ⟨fs, hfs, h⟩
    rw [(fields_ser hfs).parse']
    exact h

theorem fields_bytes {fs : List (Nat × Val)} {b : Bytes} (h : Fields fs b) {t : Nat} {c : Bytes} (hc : (t, .bytes c) ∈ fs) :
    c.length + 2 ≤ b.length := by
  refine parseFields_bytes _ _ _ (fields_ser h).parse' t c ?_
  exact List.mem_map.mpr ⟨_, hc, rfl⟩

/-! ### Values -/

theorem valuesAt_nil (t : Nat) : valuesAt t [] = [] := rfl

theorem valuesAt_hit (t : Nat) (v : Val) (fs : List (Nat × Val)) : valuesAt t ((t, v) :: fs) = v :: valuesAt t fs := by
  simp [valuesAt]

theorem valuesAt_miss {t t' : Nat} (h : t' ≠ t) (v : Val) (fs : List (Nat × Val)) : valuesAt t ((t', v) :: fs) = valuesAt t fs := by
  simp [valuesAt, h]

theorem bytes_mem {t : Nat} {fs : List (Nat × Val)} {cs : List Bytes} (h : valuesAt t fs = cs.map .bytes) {c : Bytes} (hc : c ∈ cs) :
    (t, .bytes c) ∈ fs := by
  have : Val.bytes c ∈ valuesAt t fs := by rw [h]; exact List.mem_map.mpr ⟨c, hc, rfl⟩
  obtain ⟨⟨t', v⟩, hf, e⟩ := List.mem_map.mp this
  simp only at e
  subst e
  have := List.mem_filter.mp hf
  obtain rfl : t' = t := by simpa using this.2
  exact this.1

theorem cons_number {v : Val} {l : List Val} {ns : List Nat} : v :: l = ns.map .number ↔
    ∃ n ns', v = .number n ∧ ns = n :: ns' ∧ l = ns'.map .number := by
  cases ns with
  | nil => simp
  | cons n ns => simp

theorem cons_bytes {v : Val} {l : List Val} {ns : List Bytes} : v :: l = ns.map .bytes ↔
    ∃ n ns', v = .bytes n ∧ ns = n :: ns' ∧ l = ns'.map .bytes := by
  cases ns with
  | nil => simp
  | cons n ns => simp

theorem cons_eight {v : Val} {l : List Val} {ns : List Bytes} : v :: l = ns.map .eight ↔
    ∃ n ns', v = .eight n ∧ ns = n :: ns' ∧ l = ns'.map .eight := by
  cases ns with
  | nil => simp
  | cons n ns => simp

end Rypt.Proto

import Verif.Spec.Later
import Verif.Proofs.Nesting

/-! Helpers for C122. -/

namespace Rypt.Proto

open Spec

theorem base128_decode {n : Nat} {bs : Bytes} (h : Base128 n bs) : ∀ (k w acc : Nat) (rest : Bytes), bs.length ≤ k →
    decodeVarintAux k w acc (bs ++ rest) = some ((acc + n * w) % 2 ^ 64, rest) := by
  induction h with
  | last b hb =>
    intro k w acc rest hk
    match k with
    | 0 => simp at hk
    | k + 1 => simp only [List.cons_append, List.nil_append, decodeVarintAux, hb, if_true, Nat.mod_eq_of_lt hb]
  | more b n bs hb _ ih =>
    intro k w acc rest hk
    match k with
    | 0 => simp at hk
    | k + 1 =>
      simp only [List.cons_append, decodeVarintAux]
      rw [if_neg (by omega), ih _ _ _ _ (by simp at hk; omega)]
      have h1 : b.toNat % 128 = b.toNat - 128 := by have := b.toNat_lt; omega
      rw [h1]
      congr 2
      congr 1
      ring

theorem wireNumber_decode {n : Nat} {bs : Bytes} (h : WireNumber n bs) (rest : Bytes) : decodeVarint (bs ++ rest) = some (n, rest) := by
  rw [decodeVarint, base128_decode h.digits _ _ _ _ h.short, Nat.zero_add, Nat.mul_one, Nat.mod_eq_of_lt h.fits]

theorem wireNumber_pos {n : Nat} {bs : Bytes} (h : WireNumber n bs) : 0 < bs.length := by
  obtain ⟨h, -, -⟩ := h
  cases h <;> simp

theorem bytes_fieldOf {tag : Nat} {k l v : Bytes} (h0 : 0 < tag) (ht : tag < 2 ^ 29) (hk : WireNumber (8 * tag + 2) k)
    (hl : WireNumber v.length l) : FieldOf (k ++ l ++ v) (tag, .bytes v) := by
  refine ⟨fun h => ?_, fun rest => ?_⟩
  · have := wireNumber_pos hk
    simp only [List.append_eq_nil_iff] at h
    simp [h.1.1] at this
  · rw [List.append_assoc, List.append_assoc, parseField, wireNumber_decode hk]
    simp only [Option.bind_eq_bind, Option.bind_some]
    rw [if_neg (by omega)]
    have e1 : (8 * tag + 2) / 8 = tag := by omega
    have e2 : (8 * tag + 2) % 8 = 2 := by omega
    rw [e1, e2, if_neg (by omega)]
    simp only [Option.bind_some, wireNumber_decode hl]
    rw [if_pos (by simp), List.take_left, List.drop_left]

theorem wireField_fieldOf {tag : Nat} {f : Bytes} (h0 : 0 < tag) (ht : tag < 2 ^ 29) (h : WireField tag f) :
    ∃ w, FieldOf f (tag, w) := by
  cases h with
  | number k v n hk hv =>
    refine ⟨.varint n, fun h => ?_, fun rest => ?_⟩
    · have := wireNumber_pos hk
      simp only [List.append_eq_nil_iff] at h
      simp [h.1] at this
    · rw [List.append_assoc, parseField, wireNumber_decode hk]
      simp only [Option.bind_eq_bind, Option.bind_some]
      rw [if_neg (by omega)]
      have e1 : 8 * tag / 8 = tag := by omega
      have e2 : 8 * tag % 8 = 0 := by omega
      rw [e1, e2, if_neg (by omega)]
      simp only [Option.bind_some, wireNumber_decode hv]
  | eight k v hk hv =>
    refine ⟨.fixed64 (leNat v), fun h => ?_, fun rest => ?_⟩
    · have := wireNumber_pos hk
      simp only [List.append_eq_nil_iff] at h
      simp [h.1] at this
    · rw [List.append_assoc, parseField, wireNumber_decode hk]
      simp only [Option.bind_eq_bind, Option.bind_some]
      rw [if_neg (by omega)]
      have e1 : (8 * tag + 1) / 8 = tag := by omega
      have e2 : (8 * tag + 1) % 8 = 1 := by omega
      rw [e1, e2, if_neg (by omega)]
      simp only
      rw [if_pos (by simp [hv]), List.take_left' hv, List.drop_left' hv]
  | bytes k l v hk hl => exact ⟨_, bytes_fieldOf h0 ht hk hl⟩
  | four k v hk hv =>
    refine ⟨.fixed32 (leNat v), fun h => ?_, fun rest => ?_⟩
    · have := wireNumber_pos hk
      simp only [List.append_eq_nil_iff] at h
      simp [h.1] at this
    · rw [List.append_assoc, parseField, wireNumber_decode hk]
      simp only [Option.bind_eq_bind, Option.bind_some]
      rw [if_neg (by omega)]
      have e1 : (8 * tag + 5) / 8 = tag := by omega
      have e2 : (8 * tag + 5) % 8 = 5 := by omega
      rw [e1, e2, if_neg (by omega)]
      simp only
      rw [if_pos (by simp [hv]), List.take_left' hv, List.drop_left' hv]

theorem fieldOf_length {f c : Bytes} {t : Nat} (h : FieldOf f (t, .bytes c)) : c.length + 2 ≤ f.length := by
  have := h.2 []
  rw [List.append_nil] at this
  have := (parseField_rest this).2 t c rfl
  simp only [List.length_nil] at this
  omega

theorem wireField_pos {tag : Nat} {f : Bytes} (h : WireField tag f) : 0 < f.length := by
  cases h with
  | number k v n hk => have := wireNumber_pos hk; simp; omega
  | eight k v hk => have := wireNumber_pos hk; simp; omega
  | bytes k l v hk => have := wireNumber_pos hk; simp; omega
  | four k v hk => have := wireNumber_pos hk; simp; omega

theorem added_nonempty {m : Message} {a b : Bytes} (h : Added m a b) (ha : 0 < a.length) : 0 < b.length := by
  cases h with
  | nil => exact ha
  | later _ tag f a b _ _ _ hf => have := wireField_pos hf; simp; omega
  | same _ tag f a b _ _ hf => have := wireField_pos hf; simp; omega
  | within _ m' tag k l l' v v' a b hi hk => have := wireNumber_pos hk; simp; omega

/-! The bound on the nesting does not matter. -/

theorem foldlM_congr_mem {α β : Type} {f g : α → β → Option α} : ∀ (l : List β), (∀ a, ∀ x ∈ l, f a x = g a x) →
    ∀ a, l.foldlM f a = l.foldlM g a := by
  intro l
  induction l with
  | nil => intro _ a; rfl
  | cons x l ih =>
    intro h a
    rw [List.foldlM_cons, List.foldlM_cons, h a x (by simp)]
    congr 1
    funext a'
    exact ih (fun a y hy => h a y (by simp [hy])) a'

theorem mergeCompositeKey_congr {f g : Bytes → Option EncryptedKeyParts} {x : Nat × WireVal} (h : ∀ t c, x = (t, .bytes c) → f c = g c)
    (acc : CompositeKey) : mergeCompositeKey f acc x = mergeCompositeKey g acc x := by
  unfold mergeCompositeKey
  split
  · rfl
  · rfl
  · rw [h _ _ rfl]
  · rfl
  · rfl

theorem mergeEncryptedKeyParts_congr {f g : Bytes → Option CompositeKey} {x : Nat × WireVal} (h : ∀ t c, x = (t, .bytes c) → f c = g c)
    (acc : EncryptedKeyParts) : mergeEncryptedKeyParts f acc x = mergeEncryptedKeyParts g acc x := by
  unfold mergeEncryptedKeyParts
  split
  · rfl
  · rfl
  · rfl
  · rfl
  · rw [h _ _ rfl]
  · rfl
  · rfl

theorem decode_fuel (L : Nat) : ∀ b : Bytes, b.length ≤ L → ∀ n n', b.length < n → b.length < n' →
    (∀ acc, decodeCompositeKey n acc b = decodeCompositeKey n' acc b) ∧
      decodeEncryptedKeyParts n b = decodeEncryptedKeyParts n' b := by
  induction L with
  | zero =>
    intro b hb n n' hn hn'
    obtain rfl := List.length_eq_zero_iff.mp (Nat.le_zero.mp hb)
    match n, n', hn, hn' with
    | n + 1, n' + 1, _, _ =>
      refine ⟨fun acc => ?_, ?_⟩
      · rw [decodeCompositeKey, decodeCompositeKey]; rfl
      · rw [decodeEncryptedKeyParts, decodeEncryptedKeyParts]; rfl
  | succ L ih =>
    intro b hb n n' hn hn'
    match n, n', hn, hn' with
    | n + 1, n' + 1, hn, hn' =>
      refine ⟨fun acc => ?_, ?_⟩
      · rw [decodeCompositeKey, decodeCompositeKey]
        cases hp : parseFields b.length b with
        | none => rfl
        | some fs =>
          refine foldlM_congr_mem fs (fun a x hx => mergeCompositeKey_congr (fun t c e => ?_) a) acc
          subst e
          have := parseFields_bytes _ _ _ hp t c hx
          exact (ih c (by omega) n n' (by omega) (by omega)).2
      · rw [decodeEncryptedKeyParts, decodeEncryptedKeyParts]
        cases hp : parseFields b.length b with
        | none => rfl
        | some fs =>
          refine foldlM_congr_mem fs (fun a x hx => mergeEncryptedKeyParts_congr (fun t c e => ?_) a) _
          subst e
          have := parseFields_bytes _ _ _ hp t c hx
          exact (ih c (by omega) n n' (by omega) (by omega)).1 _

theorem decodeCompositeKey_fuel {b : Bytes} {n n' : Nat} (h : b.length < n) (h' : b.length < n') (acc : CompositeKey) :
    decodeCompositeKey n acc b = decodeCompositeKey n' acc b := (decode_fuel _ b (Nat.le_refl _) n n' h h').1 acc

theorem decodeEncryptedKeyParts_fuel {b : Bytes} {n n' : Nat} (h : b.length < n) (h' : b.length < n') :
    decodeEncryptedKeyParts n b = decodeEncryptedKeyParts n' b := (decode_fuel _ b (Nat.le_refl _) n n' h h').2

/-! Unknown fields change nothing. -/

/-- The step of `decodeCryptoFamily`. -/
def mergeFamily (acc : Nat) (f : Nat × WireVal) : Option Nat :=
  match f with
  | (1, .varint n) => some (n % 2 ^ 32)
  | (1, _) => none
  | _ => some acc

theorem decodeCryptoFamily_eq (b : Bytes) : decodeCryptoFamily b = (parseFields b.length b).bind (·.foldlM mergeFamily 0) := rfl

/-- `gs`, with `n'` for `n`, does what `fs` does. -/
def SameEffect (m : Message) (n n' : Nat) (fs gs : List (Nat × WireVal)) : Prop :=
  match m with
  | .header => ∀ acc, gs.foldlM mergeHeader acc = fs.foldlM mergeHeader acc
  | .family => ∀ acc, gs.foldlM mergeFamily acc = fs.foldlM mergeFamily acc
  | .group => ∀ acc, gs.foldlM (mergeCompositeKey (decodeEncryptedKeyParts n')) acc =
      fs.foldlM (mergeCompositeKey (decodeEncryptedKeyParts n)) acc
  | .parts => ∀ acc, gs.foldlM (mergeEncryptedKeyParts (decodeCompositeKey n' default)) acc =
      fs.foldlM (mergeEncryptedKeyParts (decodeCompositeKey n default)) acc
  | .protectedPart => ∀ acc, gs.foldlM mergeProtectedHeader acc = fs.foldlM mergeProtectedHeader acc

theorem foldlM_step {α β : Type} {f g : α → β → Option α} {x y : β} {xs ys : List β} (h : ∀ a, g a y = f a x)
    (hs : ∀ a, ys.foldlM g a = xs.foldlM f a) (a : α) : (y :: ys).foldlM g a = (x :: xs).foldlM f a := by
  rw [List.foldlM_cons, List.foldlM_cons, h]
  congr 1
  funext a'
  exact hs a'

theorem foldlM_skip {α β : Type} {g : α → β → Option α} {y : β} {ys : List β} (h : ∀ a, g a y = some a) (a : α) :
    (y :: ys).foldlM g a = ys.foldlM g a := by
  rw [List.foldlM_cons, h]
  rfl

theorem unknown_skipped {m : Message} {tag : Nat} (h : tag ∉ m.known) (w : WireVal) : match m with
    | .header => ∀ acc, mergeHeader acc (tag, w) = some acc
    | .family => ∀ acc, mergeFamily acc (tag, w) = some acc
    | .group => ∀ d acc, mergeCompositeKey d acc (tag, w) = some acc
    | .parts => ∀ d acc, mergeEncryptedKeyParts d acc (tag, w) = some acc
    | .protectedPart => ∀ acc, mergeProtectedHeader acc (tag, w) = some acc := by
  cases m <;> simp only [Message.known, List.mem_cons, List.not_mem_nil, or_false, not_or] at h
  · intro acc; unfold mergeHeader; split <;> simp_all
  · intro acc; unfold mergeFamily; split <;> simp_all
  · intro d acc; unfold mergeCompositeKey; split <;> simp_all
  · intro d acc; unfold mergeEncryptedKeyParts; split <;> simp_all
  · intro acc; unfold mergeProtectedHeader; split <;> simp_all

theorem added_effect {m : Message} {a b : Bytes} (h : Added m a b) : ∃ fs gs, Ser a fs ∧ Ser b gs ∧
    ∀ n n', a.length ≤ n → b.length ≤ n' → SameEffect m n n' fs gs := by
  induction h with
  | nil m =>
    refine ⟨[], [], .nil, .nil, fun n n' _ _ => ?_⟩
    cases m <;> exact fun acc => rfl
  | later m tag f a b h0 ht hk hf _ ih =>
    obtain ⟨fs, gs, ha, hb, hs⟩ := ih
    obtain ⟨w, hw⟩ := wireField_fieldOf h0 ht hf
    refine ⟨fs, (tag, w) :: gs, ha, .cons hw hb, fun n n' hn hn' => ?_⟩
    rw [List.length_append] at hn'
    have hs := hs n n' hn (by omega)
    have hu := unknown_skipped hk w
    cases m
    · exact fun acc => (foldlM_skip hu acc).trans (hs acc)
    · exact fun acc => (foldlM_skip hu acc).trans (hs acc)
    · exact fun acc => (foldlM_skip (hu _) acc).trans (hs acc)
    · exact fun acc => (foldlM_skip (hu _) acc).trans (hs acc)
    · exact fun acc => (foldlM_skip hu acc).trans (hs acc)
  | same m tag f a b h0 ht hf _ ih =>
    obtain ⟨fs, gs, ha, hb, hs⟩ := ih
    obtain ⟨w, hw⟩ := wireField_fieldOf h0 ht hf
    refine ⟨(tag, w) :: fs, (tag, w) :: gs, .cons hw ha, .cons hw hb, fun n n' hn hn' => ?_⟩
    rw [List.length_append] at hn hn'
    have hs := hs n n' (by omega) (by omega)
    have hl : ∀ t c, (tag, w) = (t, WireVal.bytes c) → c.length < n ∧ c.length < n' := by
      intro t c e
      rw [e] at hw
      have := fieldOf_length hw
      omega
    cases m
    · exact foldlM_step (fun _ => rfl) hs
    · exact foldlM_step (fun _ => rfl) hs
    · exact foldlM_step (mergeCompositeKey_congr fun t c e => decodeEncryptedKeyParts_fuel (hl t c e).2 (hl t c e).1) hs
    · exact foldlM_step (mergeEncryptedKeyParts_congr fun t c e => decodeCompositeKey_fuel (hl t c e).2 (hl t c e).1 _) hs
    · exact foldlM_step (fun _ => rfl) hs
  | within m m' tag k l l' v v' a b hi hk hl hl' _ _ ih1 ih2 =>
    obtain ⟨fs, gs, ha, hb, hs⟩ := ih2
    obtain ⟨fs1, gs1, ha1, hb1, hs1⟩ := ih1
    have ht : 0 < tag ∧ tag < 2 ^ 29 := by
      unfold Message.inner at hi
      split at hi <;> first | omega | cases hi
    have hw := bytes_fieldOf ht.1 ht.2 hk hl
    have hw' := bytes_fieldOf ht.1 ht.2 hk hl'
    refine ⟨_, _, .cons hw ha, .cons hw' hb, fun n n' hn hn' => ?_⟩
    have := fieldOf_length hw
    have := fieldOf_length hw'
    rw [List.length_append] at hn hn'
    have hs := hs n n' (by omega) (by omega)
    unfold Message.inner at hi
    split at hi
    · cases hi
      refine foldlM_step (fun acc => ?_) hs
      simp only [mergeHeader, decodeCryptoFamily_eq, ha1.parse', hb1.parse', Option.bind_some]
      rw [show _ = _ from hs1 _ _ (Nat.le_refl _) (Nat.le_refl _) 0]
    · cases hi
      refine foldlM_step (fun acc => ?_) hs
      simp only [mergeHeader, decodeCompositeKey, ha1.parse', hb1.parse', Option.bind_eq_bind, Option.bind_some]
      rw [show _ = _ from hs1 v.length v'.length (Nat.le_refl _) (Nat.le_refl _) _]
    · cases hi
      refine foldlM_step (fun acc => ?_) hs
      match n, n' with
      | n + 1, n' + 1 =>
        simp only [mergeCompositeKey, decodeEncryptedKeyParts, ha1.parse', hb1.parse', Option.bind_eq_bind, Option.bind_some]
        rw [show _ = _ from hs1 n n' (by omega) (by omega) _]
      | 0, _ => omega
      | _, 0 => omega
    · cases hi
      refine foldlM_step (fun acc => ?_) hs
      match n, n' with
      | n + 1, n' + 1 =>
        simp only [mergeEncryptedKeyParts, decodeCompositeKey, ha1.parse', hb1.parse', Option.bind_eq_bind, Option.bind_some]
        rw [show _ = _ from hs1 n n' (by omega) (by omega) _]
      | 0, _ => omega
      | _, 0 => omega
    · cases hi

theorem decodeHeader_added {a b : Bytes} (h : Added .header a b) : decodeHeader b = decodeHeader a := by
  obtain ⟨fs, gs, ha, hb, hs⟩ := added_effect h
  simp only [decodeHeader, ha.parse', hb.parse', Option.bind_eq_bind, Option.bind_some]
  exact hs _ _ (Nat.le_refl _) (Nat.le_refl _) _

theorem decodeProtectedHeader_added {a b : Bytes} (h : Added .protectedPart a b) : decodeProtectedHeader b = decodeProtectedHeader a := by
  obtain ⟨fs, gs, ha, hb, hs⟩ := added_effect h
  simp only [decodeProtectedHeader, ha.parse', hb.parse', Option.bind_eq_bind, Option.bind_some]
  exact hs _ _ (Nat.le_refl _) (Nat.le_refl _) _

/-! What the program makes can be added to. -/

theorem encodeVarintAux_base128 (k : Nat) : ∀ n, n < 128 ^ (k + 1) → Base128 n (encodeVarintAux (k + 1) n) ∧
    (encodeVarintAux (k + 1) n).length ≤ k + 1 := by
  induction k with
  | zero =>
    intro n h
    have h : n < 128 := by simpa using h
    rw [encodeVarintAux, if_pos h]
    have e : (UInt8.ofNat n).toNat = n := UInt8.toNat_ofNat_of_lt' (by simp [UInt8.size]; omega)
    have := Base128.last (UInt8.ofNat n) (by omega)
    rw [e] at this
    exact ⟨this, by simp⟩
  | succ k ih =>
    intro n h
    rw [encodeVarintAux]
    split
    · rename_i h
      have e : (UInt8.ofNat n).toNat = n := UInt8.toNat_ofNat_of_lt' (by simp [UInt8.size]; omega)
      have := Base128.last (UInt8.ofNat n) (by omega)
      rw [e] at this
      exact ⟨this, by simp⟩
    · have e : (UInt8.ofNat (n % 128 + 128)).toNat = n % 128 + 128 := UInt8.toNat_ofNat_of_lt' (by simp [UInt8.size]; omega)
      obtain ⟨h1, h2⟩ := ih (n / 128) (by rw [Nat.pow_succ] at h; omega)
      have := Base128.more (UInt8.ofNat (n % 128 + 128)) (n / 128) _ (by omega) h1
      rw [e, show n % 128 + 128 - 128 + 128 * (n / 128) = n by omega] at this
      exact ⟨this, by rw [List.length_cons]; omega⟩

theorem encodeVarint_wire {n : Nat} (h : n < 2 ^ 64) : WireNumber n (encodeVarint n) := by
  obtain ⟨h1, h2⟩ := encodeVarintAux_base128 9 n (by omega)
  exact ⟨h1, h2, h⟩

theorem encodeBytes_wire {tag : Nat} {b : Bytes} (ht : tag < 2 ^ 29) (hb : b.length < 2 ^ 64) : WireField tag (encodeBytes tag b) := by
  refine .bytes _ _ _ ?_ (encodeVarint_wire hb)
  rw [encodeKey, Nat.mul_comm]
  exact encodeVarint_wire (by omega)

/-- `a` can be the beginning of a message. -/
def Whole (m : Message) (a : Bytes) : Prop := ∀ r s, Added m r s → Added m (a ++ r) (a ++ s)

theorem whole_nil (m : Message) : Whole m [] := fun _ _ h => h

theorem whole_append {m : Message} {a b : Bytes} (ha : Whole m a) (hb : Whole m b) : Whole m (a ++ b) := by
  intro r s h
  rw [List.append_assoc, List.append_assoc]
  exact ha _ _ (hb _ _ h)

theorem whole_bytes {m : Message} {tag : Nat} {b : Bytes} (h0 : 0 < tag) (ht : tag < 2 ^ 29) (hb : b.length < 2 ^ 64) :
    Whole m (encodeBytes tag b) := fun r s h => .same m tag _ r s h0 ht (encodeBytes_wire ht hb) h

theorem whole_bytesOpt {m : Message} {tag : Nat} {b : Bytes} (h0 : 0 < tag) (ht : tag < 2 ^ 29) (hb : b.length < 2 ^ 64) :
    Whole m (encodeBytesOpt tag b) := by
  unfold encodeBytesOpt
  split
  · exact whole_nil m
  · exact whole_bytes h0 ht hb

theorem encodeBytesOpt_length (tag : Nat) (b : Bytes) : b.length ≤ (encodeBytesOpt tag b).length := by
  unfold encodeBytesOpt
  split
  · rename_i h; simp [h]
  · have := encodeBytes_length tag b; omega

theorem whole_header {h : RyptFileHeader} (hl : (encodeHeader h).length < 2 ^ 64) : Whole .header (encodeHeader h) := by
  obtain ⟨fam, epk, key, prot⟩ := h
  have := encodeBytesOpt_length 6 epk
  have := encodeBytesOpt_length 8 prot
  unfold encodeHeader at hl ⊢
  simp only [List.length_append] at hl
  refine whole_append (whole_append (whole_append ?_ (whole_bytesOpt (by omega) (by omega) (by simp only at *; omega))) ?_)
    (whole_bytesOpt (by omega) (by omega) (by simp only at *; omega))
  · cases fam with
    | none => exact whole_nil _
    | some alg =>
      have := encodeBytes_length 1 (encodeEnum 1 alg)
      exact whole_bytes (by omega) (by omega) (by simp only at *; omega)
  · cases key with
    | none => exact whole_nil _
    | some ck =>
      have := encodeBytes_length 7 (encodeCompositeKey ck)
      exact whole_bytes (by omega) (by omega) (by simp only at *; omega)

end Rypt.Proto

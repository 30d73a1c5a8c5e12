import Mathlib.Data.List.Forall2
import Verif.Spec.Chunking

/-! Lemmas on the chunking specification. -/

namespace Rypt.Spec

theorem chunksFrom_le {size idx : Nat} {data : Bytes} (h : data.length ≤ size) :
    chunksFrom size idx data = [⟨data, true, idx⟩] := by
  rw [chunksFrom, if_pos (Or.inl h)]

theorem chunksFrom_gt {size idx : Nat} {data : Bytes} (hs : 0 < size) (h : size < data.length) :
    chunksFrom size idx data = ⟨data.take size, false, idx⟩ :: chunksFrom size (idx + 1) (data.drop size) := by
  rw [chunksFrom, if_neg (by omega)]

theorem chunksFrom_ne_nil (size idx : Nat) (data : Bytes) : chunksFrom size idx data ≠ [] := by
  rw [chunksFrom]; split <;> simp

/-- Induction along the chunks. -/
theorem chunks_induction {size : Nat} (hs : 0 < size) {motive : Nat → Bytes → Prop}
    (last : ∀ idx data, data.length ≤ size → motive idx data)
    (more : ∀ idx data, size < data.length → motive (idx + 1) (data.drop size) → motive idx data) :
    ∀ idx data, motive idx data := by
  intro idx data
  induction h : data.length using Nat.strongRecOn generalizing idx data with
  | _ n ih =>
    by_cases hl : data.length ≤ size
    · exact last idx data hl
    · apply more idx data (by omega)
      exact ih (data.drop size).length (by simp; omega) (idx + 1) (data.drop size) rfl

/-- The pieces in order are the data. -/
theorem bytesOf_chunksFrom {size : Nat} (hs : 0 < size) (idx : Nat) (data : Bytes) :
    bytesOf (chunksFrom size idx data) = data := by
  refine chunks_induction hs (motive := fun i d => bytesOf (chunksFrom size i d) = d) ?_ ?_ idx data
  · intro i d h; rw [chunksFrom_le h]; simp [bytesOf]
  · intro i d h ih
    rw [chunksFrom_gt hs h]
    unfold bytesOf at ih ⊢
    rw [List.map_cons, List.flatten_cons, ih, List.take_append_drop]

/-- Numbering is consecutive. -/
theorem chunksFrom_idx {size : Nat} (hs : 0 < size) (idx : Nat) (data : Bytes) :
    ∀ i c, (chunksFrom size idx data)[i]? = some c → c.idx = idx + i := by
  refine chunks_induction hs (motive := fun j d => ∀ i c, (chunksFrom size j d)[i]? = some c → c.idx = j + i)
    ?_ ?_ idx data
  · intro j d h i c
    rw [chunksFrom_le h]
    cases i with
    | zero => intro hc; simp at hc; subst hc; simp
    | succ i => intro hc; simp at hc
  · intro j d h ih i c
    rw [chunksFrom_gt hs h]
    cases i with
    | zero => intro hc; simp at hc; subst hc; simp
    | succ i =>
      intro hc
      rw [List.getElem?_cons_succ] at hc
      have := ih i c hc
      omega

/-- Exactly the final chunk is marked, all others are full. -/
theorem chunksFrom_layout {size : Nat} (hs : 0 < size) (idx : Nat) (data : Bytes) :
    ∀ i c, (chunksFrom size idx data)[i]? = some c → c.buffer.length ≤ size ∧
      (i + 1 = (chunksFrom size idx data).length → c.isLast = true) ∧
      (i + 1 ≠ (chunksFrom size idx data).length → c.isLast = false ∧ c.buffer.length = size) := by
  refine chunks_induction hs (motive := fun j d => ∀ i c, (chunksFrom size j d)[i]? = some c →
      c.buffer.length ≤ size ∧
      (i + 1 = (chunksFrom size j d).length → c.isLast = true) ∧
      (i + 1 ≠ (chunksFrom size j d).length → c.isLast = false ∧ c.buffer.length = size)) ?_ ?_ idx data
  · intro j d h i c
    rw [chunksFrom_le h]
    cases i with
    | zero => intro hc; simp at hc; subst hc; simpa using h
    | succ i => intro hc; simp at hc
  · intro j d h ih i c
    rw [chunksFrom_gt hs h]
    have hne := chunksFrom_ne_nil size (j + 1) (d.drop size)
    have hpos : 0 < (chunksFrom size (j + 1) (d.drop size)).length := List.length_pos_iff.mpr hne
    cases i with
    | zero =>
      intro hc
      rw [List.getElem?_cons_zero, Option.some.injEq] at hc
      subst hc
      have : (d.take size).length = size := by simp; omega
      refine ⟨by simp [this], ?_, ?_⟩
      · intro he; rw [List.length_cons] at he; omega
      · intro _; exact ⟨rfl, this⟩
    | succ i =>
      intro hc
      rw [List.getElem?_cons_succ] at hc
      obtain ⟨h1, h2, h3⟩ := ih i c hc
      rw [List.length_cons]
      exact ⟨h1, fun he => h2 (by omega), fun he => h3 (by omega)⟩

/-- The final chunk is empty only if there is no data at all. -/
theorem chunksFrom_nonempty {size : Nat} (hs : 0 < size) (idx : Nat) (data : Bytes) (hd : data ≠ []) :
    ∀ c ∈ chunksFrom size idx data, c.buffer ≠ [] := by
  refine chunks_induction hs (motive := fun j d => d ≠ [] → ∀ c ∈ chunksFrom size j d, c.buffer ≠ []) ?_ ?_ idx data hd
  · intro j d h hd c
    rw [chunksFrom_le h]
    intro hc; simp at hc; subst hc; exact hd
  · intro j d h ih hd c
    rw [chunksFrom_gt hs h]
    intro hc
    rcases List.mem_cons.mp hc with rfl | hc
    · intro he
      have : (d.take size).length = 0 := by simp only at he; rw [he]; rfl
      rw [List.length_take] at this; omega
    · exact ih (by intro he; have : (d.drop size).length = 0 := by rw [he]; rfl
                   rw [List.length_drop] at this; omega) c hc

theorem chunksFrom_length {size : Nat} (hs : 0 < size) (idx : Nat) (data : Bytes) :
    (chunksFrom size idx data).length = max 1 ((data.length + size - 1) / size) := by
  refine chunks_induction hs (motive := fun j d => (chunksFrom size j d).length =
    max 1 ((d.length + size - 1) / size)) ?_ ?_ idx data
  · intro j d h
    rw [chunksFrom_le h]
    have : (d.length + size - 1) / size ≤ 1 := by
      rw [Nat.div_le_iff_le_mul_add_pred hs]; omega
    simp only [List.length_cons, List.length_nil]; omega
  · intro j d h ih
    rw [chunksFrom_gt hs h, List.length_cons, ih]
    have e : d.length + size - 1 = ((d.drop size).length + size - 1) + size := by simp; omega
    rw [e, Nat.add_div_right _ hs]
    have : 1 ≤ ((d.drop size).length + size - 1) / size := by
      rw [Nat.le_div_iff_mul_le hs]; simp; omega
    simp only [List.length_drop] at *
    omega

/-! ### Converted prefix -/

theorem convertedPrefix_length_le (f : Chunk → Res Chunk) (cs : List Chunk) :
    (convertedPrefix f cs).length ≤ cs.length := by
  induction cs with
  | nil => simp [convertedPrefix]
  | cons c cs ih =>
    rw [convertedPrefix]
    split
    · simpa using ih
    · simp

theorem convertedPrefix_get (f : Chunk → Res Chunk) (cs : List Chunk) :
    ∀ (i : Nat) (y : Chunk), (convertedPrefix f cs)[i]? = some y → ∃ x, cs[i]? = some x ∧ f x = .ok y := by
  induction cs with
  | nil => intro i y h; simp [convertedPrefix] at h
  | cons c cs ih =>
    intro i y h
    rw [convertedPrefix] at h
    split at h
    · rename_i c' hc
      cases i with
      | zero => simp at h; subst h; exact ⟨c, by simp, hc⟩
      | succ i => simpa using ih i y (by simpa using h)
    · simp at h

theorem convertedPrefix_next {f : Chunk → Res Chunk} {cs : List Chunk} :
    ∀ {i : Nat} {x y : Chunk}, i ≤ (convertedPrefix f cs).length → cs[i]? = some x → f x = .ok y →
      (convertedPrefix f cs)[i]? = some y := by
  induction cs with
  | nil => intro i x y _ h; simp at h
  | cons c cs ih =>
    intro i x y hi hx hy
    cases i with
    | zero =>
      simp at hx; subst hx
      rw [convertedPrefix, hy]; simp
    | succ i =>
      rw [convertedPrefix] at hi ⊢
      split at hi
      · rename_i c' hc
        rw [List.getElem?_cons_succ] at hx ⊢
        exact ih (by simpa using hi) hx hy
      · simp at hi

theorem convertedPrefix_stop {f : Chunk → Res Chunk} {cs : List Chunk} :
    ∀ {i : Nat} {x : Chunk}, i ≤ (convertedPrefix f cs).length → cs[i]? = some x → (∀ y, f x ≠ .ok y) →
      (convertedPrefix f cs).length = i := by
  induction cs with
  | nil => intro i x _ h; simp at h
  | cons c cs ih =>
    intro i x hi hx hy
    cases i with
    | zero =>
      simp at hx; subst hx
      rw [convertedPrefix]
      split
      · rename_i c' hc; exact absurd hc (hy c')
      · rfl
    | succ i =>
      rw [convertedPrefix] at hi ⊢
      split at hi
      · rename_i c' hc
        rw [List.getElem?_cons_succ] at hx
        have := ih (by simpa using hi) hx hy
        simp [this]
      · simp at hi

theorem convertOutcome_ok {f : Chunk → Res Chunk} {cs : List Chunk} :
    convertOutcome f cs = .ok () ↔ (convertedPrefix f cs).length = cs.length := by
  induction cs with
  | nil => simp [convertOutcome, convertedPrefix]
  | cons c cs ih =>
    rw [convertOutcome, convertedPrefix]
    cases f c with
    | ok c' => simpa using ih
    | err e => simp
    | panic => simp

/-- The failing chunk determines the outcome. -/
theorem convertOutcome_stop {f : Chunk → Res Chunk} {cs : List Chunk} {x : Chunk} :
    ∀ {i : Nat}, (convertedPrefix f cs).length = i → cs[i]? = some x →
      convertOutcome f cs = match f x with
        | .ok _ => .ok ()
        | .err e => .err e
        | .panic => .err .threadPanic := by
  induction cs with
  | nil => intro i _ h; simp at h
  | cons c cs ih =>
    intro i hi hx
    rw [convertOutcome]
    rw [convertedPrefix] at hi
    cases hc : f c with
    | ok c' =>
      rw [hc] at hi
      simp only [List.length_cons] at hi
      subst hi
      rw [List.getElem?_cons_succ] at hx
      exact ih rfl hx
    | err e =>
      rw [hc] at hi
      simp only [List.length_nil] at hi
      subst hi
      simp at hx; subst hx
      rw [hc]
    | panic =>
      rw [hc] at hi
      simp only [List.length_nil] at hi
      subst hi
      simp at hx; subst hx
      rw [hc]

theorem all_convert_iff {f : Chunk → Res Chunk} {cs : List Chunk} :
    (convertedPrefix f cs).length = cs.length ↔ ∀ c ∈ cs, ∃ c', f c = .ok c' := by
  induction cs with
  | nil => simp [convertedPrefix]
  | cons c cs ih =>
    rw [convertedPrefix]
    cases hc : f c with
    | ok c' => simp [hc, ih]
    | err e => simp [hc]
    | panic => simp [hc]

theorem forall2_of_convertedPrefix {f : Chunk → Res Chunk} {cs : List Chunk}
    (h : (convertedPrefix f cs).length = cs.length) :
    List.Forall₂ (fun c c' => f c = .ok c') cs (convertedPrefix f cs) := by
  induction cs with
  | nil => exact .nil
  | cons c cs ih =>
    rw [convertedPrefix] at h ⊢
    cases hc : f c with
    | ok c' =>
      rw [hc] at h
      exact .cons hc (ih (by simpa using h))
    | err e => simp [hc] at h
    | panic => simp [hc] at h

end Rypt.Spec

import Verif.Proofs.GenKeysMany
import Verif.Proofs.UI

/-! The function `generateKeyPairFiles` does what one instance can do alone. -/

namespace Rypt.GenKeys

open Filesystem CryptStreams Cli

variable {sha512 : Bytes → Bytes} {a : Args} {R : FS → FS → Prop} {fs0 : FS}

theorem alone_step {cs : List (Change Unit)} {fs fs' : FS} {pl pl' : Place} {out out' : Bytes} {e : Event}
    (h : ManyRun sha512 (fun _ : Unit => a) R fs0 cs ⟨fs, fun _ => pl, fun _ => out⟩) (ha : Act sha512 a fs out pl e fs' out' pl') :
    ManyRun sha512 (fun _ : Unit => a) R fs0 (cs ++ [.own () e fs fs']) ⟨fs', fun _ => pl', fun _ => out'⟩ := by
  have := ManyRun.own cs ⟨fs, fun _ => pl, fun _ => out⟩ () e fs' out' pl' h ha
  simpa using this

/-- The files and standard output as they are at some moment of an execution; `s0` was there before. -/
def Past (sha512 : Bytes → Bytes) (a : Args) (R : FS → FS → Prop) (fs0 : FS) (s0 : Bytes) (s : FS × Bytes) : Prop :=
  ∃ cs g, ManyRun sha512 (fun _ : Unit => a) R fs0 cs g ∧ g.fs = s.1 ∧ s.2 = s0 ++ g.stdout ()

/-- After the changes `cs`, the instance is at the place `pl`. -/
def Trace (sha512 : Bytes → Bytes) (a : Args) (R : FS → FS → Prop) (fs0 : FS) (s0 : Bytes) (w : World) (pl : Place)
    (cs : List (Change Unit)) : Prop :=
  ∃ out, ManyRun sha512 (fun _ : Unit => a) R fs0 cs ⟨w.fs, fun _ => pl, fun _ => out⟩ ∧ w.stdout = s0 ++ out ∧
    ∀ s ∈ w.past, Past sha512 a R fs0 s0 s

variable {s0 : Bytes}

theorem Trace.same {w w' : World} {pl : Place} {cs : List (Change Unit)} (h : Trace sha512 a R fs0 s0 w pl cs) (h1 : w'.fs = w.fs)
    (h2 : w'.stdout = w.stdout) (h3 : w'.past = w.past) : Trace sha512 a R fs0 s0 w' pl cs := by
  obtain ⟨out, k1, k2, k3⟩ := h
  exact ⟨out, by rw [h1]; exact k1, by rw [h2]; exact k2, by rw [h3]; exact k3⟩

theorem Trace.step {w : World} {pl pl' : Place} {cs : List (Change Unit)} (h : Trace sha512 a R fs0 s0 w pl cs) {e : Event}
    (ha : ∀ out, Act sha512 a w.fs out pl e w.fs out pl') : Trace sha512 a R fs0 s0 w pl' (cs ++ [.own () e w.fs w.fs]) := by
  obtain ⟨out, k1, k2, k3⟩ := h
  exact ⟨out, alone_step k1 (ha out), k2, k3⟩

theorem setContent_self {fs : FS} {ino : Nat} {b : Bytes} (h : fs.content ino = b) : fs.setContent ino b = fs := by
  unfold FS.setContent
  have : (fun i => if i = ino then b else fs.content i) = fs.content := by
    funext i; split
    · rename_i hi; rw [hi, h]
    · rfl
  rw [this]

theorem writeByte_setContent {fs : FS} {ino k : Nat} {b : Bytes} {x : UInt8} (hx : b[k]? = some x) :
    (fs.setContent ino (b.take k)).writeByte ino k x = fs.setContent ino (b.take (k + 1)) := by
  unfold FS.writeByte FS.setContent
  simp only [if_true]
  have : (fun i => if i = ino then (b.take k).take k ++ List.replicate (k - (b.take k).length) 0 ++ x :: (b.take k).drop (k + 1)
      else if i = ino then b.take k else fs.content i) = fun i => if i = ino then b.take (k + 1) else fs.content i := by
    funext i
    split
    · exact take_succ_write hx rfl
    · rfl
  rw [this]

theorem put_zero {w : World} {sink : Sink} (h : ∀ ino, sink = .handle (.file ino) → w.fs.content ino = []) : w.put sink [] = w := by
  unfold World.put
  split
  · rw [setContent_self (h _ rfl)]
  · rfl
  · simp

/-- `k` bytes are written. -/
theorem bytes_written {w : World} {i m : Nat} {sink : Sink} {b : Bytes} {cs : List (Change Unit)} {out : Bytes}
    (h0 : ∀ ino, sink = .handle (.file ino) → w.fs.content ino = [])
    (h : ManyRun sha512 (fun _ : Unit => a) R fs0 cs ⟨w.fs, fun _ => .writing i m sink b 0, fun _ => out⟩) (hs : w.stdout = s0 ++ out) :
    ∀ k, k ≤ b.length → ∃ cs' out', ManyRun sha512 (fun _ : Unit => a) R fs0 (cs ++ cs')
      ⟨(w.put sink (b.take k)).fs, fun _ => .writing i m sink b k, fun _ => out'⟩ ∧ (w.put sink (b.take k)).stdout = s0 ++ out' := by
  intro k
  induction k with
  | zero =>
    intro _
    refine ⟨[], out, ?_, ?_⟩
    · rw [List.take_zero, put_zero h0, List.append_nil]; exact h
    · rw [List.take_zero, put_zero h0]; exact hs
  | succ k ih =>
    intro hk
    obtain ⟨cs', out', h1, h2⟩ := ih (by omega)
    obtain ⟨x, hx⟩ : ∃ x, b[k]? = some x := ⟨b[k], List.getElem?_eq_getElem (by omega)⟩
    have h3 := alone_step h1 (.write _ _ i m sink b k x hx)
    rw [List.append_assoc] at h3
    have h4 : (putByte (w.put sink (b.take k)).fs out' sink k x).1 = (w.put sink (b.take (k + 1))).fs := by
      unfold putByte World.put
      cases sink with
      | stdout => rfl
      | handle hd =>
        cases hd with
        | other => rfl
        | file ino => exact writeByte_setContent hx
    rw [h4] at h3
    refine ⟨_, _, h3, ?_⟩
    unfold putByte
    unfold World.put at h2 ⊢
    split at h2
    · exact h2
    · exact h2
    · dsimp only at h2 ⊢
      rw [List.take_add_one, hx]
      simp only [Option.toList_some]
      rw [← List.append_assoc, h2, List.append_assoc]

theorem open_empty {fs fs' : FS} {force : Bool} {o : Output} {sink : Sink} (h : openOutput fs force o = some (fs', sink)) {ino : Nat}
    (hs : sink = .handle (.file ino)) : fs'.content ino = [] := by
  subst hs
  cases o with
  | stdout => simp [openOutput] at h
  | file p =>
    simp only [CryptStreams.openOutput] at h
    split at h
    · rename_i heq
      cases h
      split at heq
      · unfold FS.createTrunc at heq
        split at heq
        · cases heq
        · split at heq
          · cases heq; simp [FS.createAt]
          · cases heq; simp [FS.setContent]
          · cases heq
          · cases heq
      · unfold FS.createNew at heq
        split at heq
        · cases heq
        · cases heq; simp [FS.createAt]
    · cases h

/-- The outcome of a file: it is complete and the next one is opened, or the next pair is begun. -/
def FileTrace (sha512 : Bytes → Bytes) (a : Args) (R : FS → FS → Prop) (fs0 : FS) (s0 : Bytes) (i m : Nat) (cs : List (Change Unit))
    (r : Res Unit × World) : Prop :=
  match r with
  | (.ok (), w) => ∃ cs', Trace sha512 a R fs0 s0 w (.opening i m) (cs ++ cs')
  | (.err _, w) => ∃ cs', Trace sha512 a R fs0 s0 w (.next (i + 1)) (cs ++ cs')
  | (.panic, _) => False

theorem writeAll_trace {w : World} {i m : Nat} {sink : Sink} {b : Bytes} {cs : List (Change Unit)}
    (h0 : ∀ ino, sink = .handle (.file ino) → w.fs.content ino = []) (h : Trace sha512 a R fs0 s0 w (.writing i m sink b 0) cs) :
    FileTrace sha512 a R fs0 s0 i (m + 1) cs (writeAll w sink b) := by
  obtain ⟨out, h1, h2, h3⟩ := h
  have hb := bytes_written (a := a) (R := R) h0 h1 h2
  have hput : ∀ (u : World), u.fs = w.fs → u.stdout = w.stdout → ∀ c, (u.put sink c).fs = (w.put sink c).fs ∧
      (u.put sink c).stdout = (w.put sink c).stdout ∧ (u.put sink c).past = u.past := by
    intro u e1 e2 c
    unfold World.put
    split <;> simp [e1, e2]
  have hduring : ∀ n, ∀ s ∈ w.during sink (b.take n), Past sha512 a R fs0 s0 s := by
    intro n s hs
    simp only [World.during, List.mem_map, List.mem_range] at hs
    obtain ⟨k, hk, rfl⟩ := hs
    obtain ⟨cs', out', k1, k2⟩ := hb (min k n) (by simp at hk; omega)
    refine ⟨_, _, k1, ?_, ?_⟩
    · rw [List.take_take]
    · rw [List.take_take]; exact k2
  have hpast : ∀ n, ∀ s ∈ w.past ++ w.during sink (b.take n), Past sha512 a R fs0 s0 s := by
    intro n s hs
    rcases List.mem_append.mp hs with hs | hs
    · exact h3 s hs
    · exact hduring n s hs
  unfold writeAll
  split
  · obtain ⟨cs', out', k1, k2⟩ := hb b.length (Nat.le_refl _)
    obtain ⟨e1, e2, e3⟩ := hput { w with fates := w.fates.tail, past := w.past ++ w.during sink b } rfl rfl b
    rw [List.take_length] at k1 k2
    have := alone_step k1 (.close _ _ i m sink b)
    rw [List.append_assoc] at this
    rw [← e1] at this
    refine ⟨_, out', this, by rw [e2]; exact k2, ?_⟩
    rw [e3]
    have := hpast b.length
    rwa [List.take_length] at this
  · rename_i n _
    obtain ⟨cs', out', k1, k2⟩ := hb (min n b.length) (by omega)
    rw [show b.take (min n b.length) = b.take n by rw [← List.take_eq_take_min]] at k1 k2
    obtain ⟨e1, e2, e3⟩ := hput { w with fates := w.fates.tail, past := w.past ++ w.during sink (b.take n) } rfl rfl (b.take n)
    have := alone_step k1 (.writeFails _ _ i m sink b _)
    rw [List.append_assoc] at this
    rw [← e1] at this
    refine ⟨_, out', this, by rw [e2]; exact k2, ?_⟩
    rw [e3]
    exact hpast n

theorem writeFile_trace {w : World} {i m : Nat} {q : KeyPairOutputStreams × Bytes × Bytes} {o : Output} {b : Bytes}
    {cs : List (Change Unit)} (hq : a.pairs[i]? = some q) (hm : (parts sha512 q)[m]? = some (o, b))
    (h : Trace sha512 a R fs0 s0 w (.opening i m) cs) : FileTrace sha512 a R fs0 s0 i (m + 1) cs (writeFile w a.force o b) := by
  unfold writeFile
  split
  · exact ⟨_, (h.same rfl rfl rfl : Trace sha512 a R fs0 s0 { w with fates := w.fates.tail } _ _).step
      (fun out => .openFails _ out i m q o b hq hm)⟩
  · split
    · exact ⟨_, (h.same rfl rfl rfl : Trace sha512 a R fs0 s0 { w with fates := w.fates.tail } _ _).step
        (fun out => .openFails _ out i m q o b hq hm)⟩
    · rename_i fs sink ho
      obtain ⟨out, h1, h2, h3⟩ := h
      have h4 : Trace sha512 a R fs0 s0 { w with fs := fs, fates := w.fates.tail } (.writing i m sink b 0) (cs ++ [.own () .tau w.fs fs]) :=
        ⟨out, alone_step h1 (.openFile _ _ i m q o b fs sink hq hm ho), h2, h3⟩
      have := writeAll_trace (fun ino hs => open_empty ho hs) h4
      revert this
      generalize writeAll { w with fs := fs, fates := w.fates.tail } sink b = r
      obtain ⟨r, w'⟩ := r
      cases r with
      | ok u => rintro ⟨cs', h⟩; rw [List.append_assoc] at h; exact ⟨_, h⟩
      | err e => rintro ⟨cs', h⟩; rw [List.append_assoc] at h; exact ⟨_, h⟩
      | panic => exact id

theorem say_trace {w : World} {pl : Place} {cs : List (Change Unit)} (h : Trace sha512 a R fs0 s0 w pl cs) (m : List Char) :
    Trace sha512 a R fs0 s0 (say w m).2 pl cs := h.same rfl rfl rfl

/-- The program says something before it deals with a file. -/
theorem sayFile_trace {w : World} {i m : Nat} {q : KeyPairOutputStreams × Bytes × Bytes} {o : Output} {b : Bytes}
    {cs : List (Change Unit)} (hq : a.pairs[i]? = some q) (hm : (parts sha512 q)[m]? = some (o, b))
    (h : Trace sha512 a R fs0 s0 w (.opening i m) cs) (msg : List Char) (hp : (say w msg).1 ≠ .panic) :
    FileTrace sha512 a R fs0 s0 i (m + 1) cs (andThen (say w msg) fun w => writeFile w a.force o b) := by
  have h' := say_trace h msg
  revert h' hp
  generalize say w msg = r
  obtain ⟨r, w'⟩ := r
  intro hp h'
  cases r with
  | ok u => exact writeFile_trace hq hm h'
  | err e => exact ⟨_, h'.step (fun out => .openFails _ out i m q o b hq hm)⟩
  | panic => exact absurd rfl hp

theorem FileTrace.andThen {i m m' : Nat} {cs : List (Change Unit)} {r : Res Unit × World} {f : World → Res Unit × World}
    (h : FileTrace sha512 a R fs0 s0 i m cs r)
    (hf : ∀ w cs', Trace sha512 a R fs0 s0 w (.opening i m) cs' → FileTrace sha512 a R fs0 s0 i m' cs' (f w)) :
    FileTrace sha512 a R fs0 s0 i m' cs (andThen r f) := by
  obtain ⟨r, w⟩ := r
  cases r with
  | ok u =>
    obtain ⟨cs', h⟩ := h
    have := hf w _ h
    revert this
    show FileTrace _ _ _ _ _ _ _ _ (f w) → FileTrace _ _ _ _ _ _ _ _ (f w)
    generalize f w = r
    obtain ⟨r, w'⟩ := r
    cases r with
    | ok u => rintro ⟨cs'', h⟩; rw [List.append_assoc] at h; exact ⟨_, h⟩
    | err e => rintro ⟨cs'', h⟩; rw [List.append_assoc] at h; exact ⟨_, h⟩
    | panic => exact id
  | err e => exact h
  | panic => exact h.elim

theorem say_never_panics (w : World) (msg : List Char) : (say w msg).1 ≠ .panic := by
  unfold say UI.println UI.print
  dsimp only
  split
  · exact UI.writeAll_no_panic _ _
  · simp

theorem writePair_trace {w : World} {i : Nat} {q : KeyPairOutputStreams × Bytes × Bytes} {priv : List Char}
    {cs : List (Change Unit)} (hq : a.pairs[i]? = some q) (hk : KeyText.privateKeyText sha512 q.2.1 q.2.2 = .ok priv)
    (h : Trace sha512 a R fs0 s0 w (.opening i 0) cs) :
    FileTrace sha512 a R fs0 s0 i (parts sha512 q).length cs (writePair w a.force q.1 (KeyText.publicKeyText sha512 q.2.1) priv) := by
  unfold writePair
  cases hs : q.1.publicKeyStream with
  | none =>
    have hp : parts sha512 q = [(q.1.privateKeyStream, Text.encode priv)] := by simp [parts, hk, hs]
    rw [hp]
    exact sayFile_trace hq (by rw [hp]; rfl) h _ (say_never_panics _ _)
  | some o =>
    have hp : parts sha512 q = [(o, Text.encode (KeyText.publicKeyText sha512 q.2.1)), (q.1.privateKeyStream, Text.encode priv)] := by
      simp [parts, hk, hs]
    rw [hp]
    refine FileTrace.andThen (m := 1) (sayFile_trace hq (by rw [hp]; rfl) h _ (say_never_panics _ _)) fun w cs' h' => ?_
    exact sayFile_trace hq (by rw [hp]; rfl) h' _ (say_never_panics _ _)

/-- What happens to a pair: it is written, it fails, or the program stops. -/
def PairTrace (sha512 : Bytes → Bytes) (a : Args) (R : FS → FS → Prop) (fs0 : FS) (s0 : Bytes) (i : Nat) (cs : List (Change Unit))
    (r : Res Bool × World) : Prop :=
  match r with
  | (.ok failed, w) => ∃ cs', Trace sha512 a R fs0 s0 w (.next (i + 1)) (cs ++ cs') ∧ (failed = false → Reported cs' () i)
  | (_, w) => ∃ pl cs', Trace sha512 a R fs0 s0 w pl (cs ++ cs')

theorem andThen_stop {i : Nat} {cs : List (Change Unit)} {w w' : World} {r : Res Unit} {pl : Place} {f : World → Res Bool × World}
    (h : ∃ cs', Trace sha512 a R fs0 s0 w pl (cs ++ cs')) (h1 : w'.fs = w.fs) (h2 : w'.stdout = w.stdout) (h3 : w'.past = w.past)
    (hf : (∃ cs', Trace sha512 a R fs0 s0 w' pl (cs ++ cs')) → PairTrace sha512 a R fs0 s0 i cs (f w')) :
    PairTrace sha512 a R fs0 s0 i cs (andThen (r, w') f) := by
  obtain ⟨cs', h⟩ := h
  have h' := h.same h1 h2 h3
  cases r with
  | ok u => exact hf ⟨cs', h'⟩
  | err e => exact ⟨pl, cs', h'⟩
  | panic => exact ⟨pl, cs', h'⟩

theorem reportPair_trace {i : Nat} {q : KeyPairOutputStreams × Bytes × Bytes} {cs : List (Change Unit)} {r : Res Unit × World}
    (hq : a.pairs[i]? = some q) (h : FileTrace sha512 a R fs0 s0 i (parts sha512 q).length cs r) :
    PairTrace sha512 a R fs0 s0 i cs (reportPair r) := by
  obtain ⟨r, w⟩ := r
  cases r with
  | panic => exact h.elim
  | ok u =>
    obtain ⟨cs', h⟩ := h
    have h' := h.step (fun out => .finish _ out i _ q hq rfl)
    rw [List.append_assoc] at h'
    show PairTrace sha512 a R fs0 s0 i cs (GenKeys.andThen (say w []) fun w => (.ok false, w))
    have h'' := say_trace h' []
    revert h''
    generalize say w [] = r
    obtain ⟨r, w'⟩ := r
    intro h''
    cases r with
    | ok u => exact ⟨_, h'', fun _ => ⟨_, _, List.mem_append_right _ (List.mem_singleton_self _)⟩⟩
    | err e => exact ⟨_, _, h''⟩
    | panic => exact ⟨_, _, h''⟩
  | err e =>
    refine andThen_stop h rfl rfl rfl fun h => ?_
    refine andThen_stop h rfl rfl rfl fun h => ?_
    obtain ⟨cs', h⟩ := h
    exact ⟨cs', h, by rintro ⟨⟩⟩

theorem genPair_trace {w : World} {i total : Nat} {s : KeyPairOutputStreams} {pk sk : Bytes} {cs : List (Change Unit)}
    (hq : a.pairs[i]? = some (s, pk, sk)) (h : Trace sha512 a R fs0 s0 w (.next i) cs) :
    PairTrace sha512 a R fs0 s0 i cs (genPair sha512 a.force total i s pk sk w) := by
  have h0 : ∃ cs', Trace sha512 a R fs0 s0 w (.next i) (cs ++ cs') := ⟨[], by rwa [List.append_nil]⟩
  unfold genPair
  split
  · obtain ⟨cs', h⟩ := h0; exact ⟨_, cs', h⟩
  · obtain ⟨cs', h⟩ := h0; exact ⟨_, cs', h⟩
  · rename_i priv hk
    refine andThen_stop h0 rfl rfl rfl fun h => ?_
    refine andThen_stop h rfl rfl rfl fun h => ?_
    obtain ⟨cs', h⟩ := h
    have h1 := h.step (fun out => .begin _ out i _ priv hq hk)
    have := reportPair_trace hq (writePair_trace hq hk h1)
    revert this
    generalize reportPair _ = r
    obtain ⟨r, w'⟩ := r
    cases r with
    | ok u =>
      rintro ⟨cs'', h2, h3⟩
      rw [List.append_assoc, List.append_assoc] at h2
      exact ⟨_, h2, fun hf => by
        obtain ⟨f, f', hm⟩ := h3 hf
        exact ⟨f, f', by simp [hm]⟩⟩
    | err e => rintro ⟨pl, cs'', h2⟩; rw [List.append_assoc, List.append_assoc] at h2; exact ⟨pl, _, h2⟩
    | panic => rintro ⟨pl, cs'', h2⟩; rw [List.append_assoc, List.append_assoc] at h2; exact ⟨pl, _, h2⟩

theorem genPairs_trace {total : Nat} : ∀ (pairs : List (KeyPairOutputStreams × Bytes × Bytes)) (i : Nat) (w : World)
    (cs : List (Change Unit)), (∀ k q, pairs[k]? = some q → a.pairs[i + k]? = some q) → Trace sha512 a R fs0 s0 w (.next i) cs →
    ∃ pl cs', Trace sha512 a R fs0 s0 (genPairs sha512 a.force total i pairs w).2 pl (cs ++ cs') ∧
      ∀ failed, (genPairs sha512 a.force total i pairs w).1 = .ok failed →
        ∀ k < pairs.length, i + k ∉ failed → Reported cs' () (i + k) := by
  intro pairs
  induction pairs with
  | nil =>
    intro i w cs _ h
    exact ⟨_, [], by rw [List.append_nil]; exact h, by simp⟩
  | cons x rest ih =>
    intro i w cs hp h
    obtain ⟨s, pk, sk⟩ := x
    have h1 := genPair_trace (total := total) (by simpa using hp 0 _ rfl) h
    rw [genPairs]
    revert h1
    generalize genPair sha512 a.force total i s pk sk w = r
    obtain ⟨r, w1⟩ := r
    cases r with
    | panic => rintro ⟨pl, cs', h1⟩; exact ⟨pl, cs', h1, by rintro _ ⟨⟩⟩
    | err e => rintro ⟨pl, cs', h1⟩; exact ⟨pl, cs', h1, by rintro _ ⟨⟩⟩
    | ok failed1 =>
      rintro ⟨cs1, h1, hrep⟩
      obtain ⟨pl, cs2, h2, h3⟩ := ih (i + 1) w1 _ (fun k q hk => by
        have := hp (k + 1) q (by simpa using hk)
        rwa [show i + (k + 1) = i + 1 + k by omega] at this) h1
      have hsnd : ∀ r : Res (List Nat) × World, (match r with
          | (.ok more, w) => (.ok (if failed1 then i :: more else more), w)
          | r => r : Res (List Nat) × World).2 = r.2 := by
        rintro ⟨r, w⟩; cases r <;> rfl
      refine ⟨pl, cs1 ++ cs2, ?_, ?_⟩
      · rw [← List.append_assoc]
        refine Eq.mpr (congrArg (fun u => Trace sha512 a R fs0 s0 u pl (cs ++ cs1 ++ cs2)) (hsnd _)) h2
      · intro failed hf k hk hnot
        dsimp only at hf
        revert hf h3
        generalize genPairs sha512 a.force total (i + 1) rest w1 = r
        obtain ⟨r, w2⟩ := r
        intro h3 hf
        cases r with
        | panic => cases hf
        | err e => cases hf
        | ok more =>
          simp only [Res.ok.injEq] at hf
          subst hf
          cases k with
          | zero =>
            refine (hrep ?_ : Reported cs1 () i).mono _
            cases failed1 with
            | false => rfl
            | true => simp at hnot
          | succ k =>
            have hnot' : i + 1 + k ∉ more := by
              rw [show i + 1 + k = i + (k + 1) by omega]
              intro hin
              apply hnot
              split
              · exact List.mem_cons_of_mem _ hin
              · exact hin
            obtain ⟨f, f', hm⟩ := h3 more rfl k (by simpa using hk) hnot'
            refine ⟨f, f', List.mem_append_right _ ?_⟩
            rwa [show i + (k + 1) = i + 1 + k by omega]

end Rypt.GenKeys

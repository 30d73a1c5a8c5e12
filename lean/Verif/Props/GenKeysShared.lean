import Verif.Proofs.GenKeysAlone
import Verif.Props.GenKeys

/-!
Properties C116 and C117: generating keys while other processes use the same files, and several generations at once. A `ManyRun` is
an execution of any number of instances among other processes, in any order; its `Change`s are all changes to the files.
-/

namespace Rypt.Props

open GenKeys Filesystem CryptStreams Cli

section

variable {ι : Type} [DecidableEq ι] {sha512 : Bytes → Bytes} {args : ι → Args} {fs0 : FS} {cs : List (Change ι)} {g : Many ι}

/-! ### C116 -/

/-- C116. Without `--force`, whatever other processes do: an instance changes the content of a file only if it has itself made
this file, at the path of a key where there was nothing; and all it does is to put a byte of the text of this key to its position. -/
theorem keygen_writes_only_what_it_made (hwf : fs0.WF) (h : ManyRun sha512 args Others fs0 cs g) {pre post : List (Change ι)} {j : ι}
    {e : Event} {f f' : FS} (hm : cs = pre ++ .own j e f f' :: post) (hforce : (args j).force = false) {ino : Nat}
    (hc : f'.content ino ≠ f.content ino) : ∃ q ∈ (args j).pairs, ∃ p b, TextFor sha512 q (.file p) b ∧
      (∃ e0 f0 f1, Change.own j e0 f0 f1 ∈ pre ++ [.own j e f f'] ∧ f0.entry (f0.loc p) = none ∧
        f1.entry (f0.loc p) = some (.file ino) ∧ f0.nextIno ≤ ino ∧ ∀ n, f0.entry n ≠ some (.file ino)) ∧
      (f'.content ino = [] ∨ ByteOf b (f.content ino) (f'.content ino)) := by
  obtain ⟨q, hq, p, b, ht, -, hmade, hb⟩ := ((any_run (fun _ _ h => h) hwf h).2 _ _ _ _ _ _ hm).content ino hc
  exact ⟨q, hq, p, b, ht, hmade hforce, hb⟩

/-- C116. With or without `--force`, whatever other processes do: key generation never removes or replaces a directory entry, and
no path denotes another entry because of it. It puts a new file where there was nothing, at the path of a key (with `--force`:
perhaps where links lead from there). -/
theorem keygen_only_adds_entries (hwf : fs0.WF) (h : ManyRun sha512 args Others fs0 cs g) {pre post : List (Change ι)} {j : ι}
    {e : Event} {f f' : FS} (hm : cs = pre ++ .own j e f f' :: post) : f'.loc = f.loc ∧
      ∀ n, f'.entry n ≠ f.entry n → f.entry n = none ∧ ∃ p ∈ allPaths (args j).pairs, ∃ ino, f.Leads (f.loc p) n ∧
        ((args j).force = false → n = f.loc p) ∧ f'.entry n = some (.file ino) ∧ f.nextIno ≤ ino ∧ ∀ m, f.entry m ≠ some (.file ino) := by
  have := (any_run (fun _ _ h => h) hwf h).2 _ _ _ _ _ _ hm
  exact ⟨this.loc, this.entry⟩

/-- C116. Even with `--force`, whatever other processes do: an instance changes the content of a file only if the path of a key
denoted this file (perhaps through links) when the instance opened it; it empties it then, and later puts bytes of the text of
this key to their positions. -/
theorem keygen_forced_writes_when_shared (hwf : fs0.WF) (h : ManyRun sha512 args Others fs0 cs g) {pre post : List (Change ι)} {j : ι}
    {e : Event} {f f' : FS} (hm : cs = pre ++ .own j e f f' :: post) {ino : Nat} (hc : f'.content ino ≠ f.content ino) :
    ∃ q ∈ (args j).pairs, ∃ p b, TextFor sha512 q (.file p) b ∧
      (∃ e0 f0 f1 n, Change.own j e0 f0 f1 ∈ pre ++ [.own j e f f'] ∧ f1.Leads (f1.loc p) n ∧ f1.entry n = some (.file ino) ∧
        f1.content ino = []) ∧
      (f'.content ino = [] ∨ ByteOf b (f.content ino) (f'.content ino)) := by
  obtain ⟨q, hq, p, b, ht, hd, -, hb⟩ := ((any_run (fun _ _ h => h) hwf h).2 _ _ _ _ _ _ hm).content ino hc
  exact ⟨q, hq, p, b, ht, hd, hb⟩

/-- C116. What holds of all these executions holds of a key generation that is alone: every moment of it is a moment of one of
them. -/
theorem keygen_alone_is_shared (sha512 : Bytes → Bytes) (force : Bool) (pairs : List (KeyPairOutputStreams × Bytes × Bytes)) (w : World)
    (others : FS → FS → Prop) (fs : FS) (stdout : Bytes) (h : Moment sha512 force pairs w fs stdout) :
    ∃ cs g, ManyRun sha512 (fun _ : Unit => ⟨force, pairs⟩) others w.fs cs g ∧ g.fs = fs ∧ stdout = w.stdout ++ g.stdout () := by
  have h0 : Trace sha512 ⟨force, pairs⟩ others w.fs w.stdout { w with past := [] } (.next 0) [] :=
    ⟨[], .start, (List.append_nil _).symm, by simp⟩
  obtain ⟨pl, cs, ⟨out, h1, h2, h3⟩, -⟩ := genPairs_trace (total := pairs.length) pairs 0 { w with past := [] } []
    (by simp) h0
  rcases h with ⟨rfl, rfl⟩ | h | ⟨rfl, rfl⟩
  · exact ⟨[], _, .start, rfl, (List.append_nil _).symm⟩
  · exact h3 _ h
  · exact ⟨_, _, h1, rfl, h2⟩

/-- C116. And a pair for which no error was reported by it is reported as written there. -/
theorem keygen_alone_reports (sha512 : Bytes → Bytes) (force : Bool) (pairs : List (KeyPairOutputStreams × Bytes × Bytes)) (w w' : World)
    (others : FS → FS → Prop) (failed : List Nat) (h : generateKeyPairFiles sha512 force pairs { w with past := [] } = (.ok failed, w')) :
    ∃ cs g, ManyRun sha512 (fun _ : Unit => ⟨force, pairs⟩) others w.fs cs g ∧ g.fs = w'.fs ∧ w'.stdout = w.stdout ++ g.stdout () ∧
      ∀ i < pairs.length, i ∉ failed → Reported cs () i := by
  have h0 : Trace sha512 ⟨force, pairs⟩ others w.fs w.stdout { w with past := [] } (.next 0) [] :=
    ⟨[], .start, (List.append_nil _).symm, by simp⟩
  obtain ⟨pl, cs, ⟨out, h1, h2, -⟩, h3⟩ := genPairs_trace (total := pairs.length) pairs 0 { w with past := [] } [] (by simp) h0
  unfold generateKeyPairFiles at h
  rw [h] at h1 h2 h3
  exact ⟨_, _, h1, rfl, h2, fun i hi hf => by simpa using h3 failed rfl i hi (by simpa using hf)⟩

/-! ### C117 -/

variable {N : Nat → Prop}

/-- C117. Any number of instances may generate keys at the same time, without `--force` and even for the same files, among other
processes that leave alone what is at the places of the key files. The files of a pair that was reported as written contain the
texts of its keys, then and at every later moment. -/
theorem reported_pair_stays (hwf : fs0.WF) (hforce : ∀ j, (args j).force = false) (hN : CoversKeys args fs0 N)
    (h : ManyRun sha512 args (Respects N) fs0 cs g) {j : ι} {i : Nat} (hr : Reported cs j i) :
    ∃ s pk sk, (args j).pairs[i]? = some (s, pk, sk) ∧ PairWritten sha512 g.fs s pk sk := by
  obtain ⟨owner, hi⟩ := many_run hwf hforce hN h
  obtain ⟨⟨s, pk, sk⟩, h1, ⟨priv, hk⟩, h2⟩ := hi.written j i hr
  have key : ∀ (m : Nat) (p : Path) (b : Bytes), (parts sha512 (s, pk, sk))[m]? = some (Output.file p, b) → g.fs.holds p b := by
    intro m p b hm
    obtain ⟨ino, h3, h4⟩ := h2 m p b (part_of h1 hm)
    obtain ⟨p', b', h5, h6, -⟩ := hi.own ino j i m h3
    rw [part_of h1 hm] at h5
    cases h5
    exact ⟨ino, by rw [hi.loc]; exact h6, h4⟩
  refine ⟨s, pk, sk, h1, priv, hk, fun p hp => ?_, fun p hp => ?_⟩
  · exact key 0 p _ (by dsimp only at hk; simp [parts, hk, hp])
  · cases hs : s.publicKeyStream with
    | none => exact key 0 p _ (by dsimp only at hk; simp [parts, hk, hp, hs])
    | some o => exact key 1 p _ (by dsimp only at hk; simp [parts, hk, hp, hs])

/-- C117. No two pairs that were reported as written have a file in common, whichever instances they are of. -/
theorem one_generation_wins (hwf : fs0.WF) (hforce : ∀ j, (args j).force = false) (hN : CoversKeys args fs0 N)
    (h : ManyRun sha512 args (Respects N) fs0 cs g) {j j' : ι} {i i' : Nat} (hr : Reported cs j i) (hr' : Reported cs j' i')
    {q q' : KeyPairOutputStreams × Bytes × Bytes} (hq : (args j).pairs[i]? = some q) (hq' : (args j').pairs[i']? = some q')
    {p p' : Path} (hp : p ∈ pairPaths q.1) (hp' : p' ∈ pairPaths q'.1) (hsame : fs0.loc p = fs0.loc p') : j = j' ∧ i = i' := by
  obtain ⟨owner, hi⟩ := many_run hwf hforce hN h
  have key : ∀ {j i q p}, Reported cs j i → (args j).pairs[i]? = some q → p ∈ pairPaths q.1 →
      ∃ m ino, owner ino = some (j, i, m) ∧ g.fs.entry (fs0.loc p) = some (.file ino) := by
    intro j i q p hr hq hp
    obtain ⟨q', h1, ⟨priv, hk⟩, h2⟩ := hi.written j i hr
    rw [hq] at h1
    cases h1
    obtain ⟨m, b, hm⟩ : ∃ m b, (parts sha512 q)[m]? = some (Output.file p, b) := by
      simp only [pairPaths, List.mem_filterMap, List.mem_append, Option.mem_toList, List.mem_singleton] at hp
      obtain ⟨o, ho, hop⟩ := hp
      cases o with
      | stdout => cases hop
      | file p0 =>
        cases hop
        cases hs : q.1.publicKeyStream with
        | none =>
          rw [hs] at ho
          exact ⟨0, Text.encode priv, by simp only [parts, hk, hs, ← ho.resolve_left (by simp)]; rfl⟩
        | some o =>
          rw [hs] at ho
          rcases ho with ho | ho
          · cases ho; exact ⟨0, _, by simp only [parts, hk, hs]; rfl⟩
          · exact ⟨1, Text.encode priv, by simp [parts, hk, hs, ← ho]⟩
    obtain ⟨ino, h3, h4⟩ := h2 m p b (part_of hq hm)
    obtain ⟨p', b', h5, h6, -⟩ := hi.own ino j i m h3
    rw [part_of hq hm] at h5
    cases h5
    exact ⟨m, ino, h3, h6⟩
  obtain ⟨m, ino, h1, h2⟩ := key hr hq hp
  obtain ⟨m', ino', h1', h2'⟩ := key hr' hq' hp'
  rw [hsame, h2'] at h2
  cases h2
  rw [h1] at h1'
  cases h1'
  exact ⟨rfl, rfl⟩

/-- C117. Public and private keys of different pairs never come together under the names of one pair: at every moment, what is at
the place of a key file was there before, or was put there by another process, or it is (the beginning of) a public key, or it is
(the beginning of) a private key whose public key is complete in its own file. -/
theorem key_files_belong_together (hwf : fs0.WF) (hforce : ∀ j, (args j).force = false) (hN : CoversKeys args fs0 N)
    (h : ManyRun sha512 args (Respects N) fs0 cs g) {n : Nat} (hn : N n) {node : Node} (he : g.fs.entry n = some node) :
    fs0.entry n = some node ∨ (∃ f f', Change.others f f' ∈ cs ∧ f.entry n = none ∧ f'.entry n = some node) ∨
    ∃ ino j q p, node = .file ino ∧ q ∈ (args j).pairs ∧ fs0.loc p = n ∧ fs0.entry n = none ∧
      ((q.1.publicKeyStream = some (.file p) ∧ g.fs.content ino <+: Text.encode (KeyText.publicKeyText sha512 q.2.1)) ∨
        (q.1.privateKeyStream = .file p ∧ (∃ priv, KeyText.privateKeyText sha512 q.2.1 q.2.2 = .ok priv ∧
          g.fs.content ino <+: Text.encode priv) ∧
          ∀ p', q.1.publicKeyStream = some (.file p') → g.fs.holds p' (Text.encode (KeyText.publicKeyText sha512 q.2.1)))) := by
  obtain ⟨owner, hi⟩ := many_run hwf hforce hN h
  rcases hi.new n node hn he with h1 | ⟨ino, j, i, m, p, b, rfl, ho, hp, rfl⟩ | h1
  · exact .inl h1
  · refine .inr (.inr ?_)
    obtain ⟨p', b', h5, h6, h7, -, h8, h9⟩ := hi.own ino j i m ho
    rw [hp] at h5
    cases h5
    obtain ⟨q, hq, hm⟩ := of_part hp
    refine ⟨ino, j, q, p, rfl, List.mem_of_getElem? hq, rfl, h7, ?_⟩
    have hm' := hm
    unfold parts at hm'
    split at hm'
    · rename_i priv hk
      cases hs : q.1.publicKeyStream with
      | none =>
        rw [hs] at hm'
        cases m with
        | succ m => simp at hm'
        | zero =>
          simp at hm'
          obtain ⟨h1, rfl⟩ := hm'
          exact .inr ⟨h1, ⟨priv, hk, h8⟩, by simp⟩
      | some o =>
        rw [hs] at hm'
        cases m with
        | zero =>
          simp at hm'
          obtain ⟨rfl, rfl⟩ := hm'
          exact .inl ⟨rfl, h8⟩
        | succ m =>
          cases m with
          | succ m => simp at hm'
          | zero =>
            simp at hm'
            obtain ⟨h1, rfl⟩ := hm'
            refine .inr ⟨h1, ⟨priv, hk, h8⟩, ?_⟩
            rintro p' ⟨⟩
            have hpart : part sha512 (args j) i 0 = some (.file p', Text.encode (KeyText.publicKeyText sha512 q.2.1)) :=
              part_of hq (by simp only [parts, hk, hs]; rfl)
            obtain ⟨ino', k1, k2⟩ := h9 0 (by omega) p' _ hpart
            obtain ⟨p'', b'', k3, k4, -⟩ := hi.own ino' j i 0 k1
            rw [hpart] at k3
            cases k3
            exact ⟨ino', by rw [hi.loc]; exact k4, k2⟩
    · simp at hm'
  · exact .inr (.inl h1)

/-- C117. What was there at the places of the key files in the beginning stays as it was. -/
theorem generations_keep_files (hwf : fs0.WF) (hforce : ∀ j, (args j).force = false) (hN : CoversKeys args fs0 N)
    (h : ManyRun sha512 args (Respects N) fs0 cs g) {n : Nat} (hn : N n) {node : Node} (he : fs0.entry n = some node) :
    g.fs.entry n = some node ∧ ∀ ino, node = .file ino → g.fs.content ino = fs0.content ino := by
  obtain ⟨owner, hi⟩ := many_run hwf hforce hN h
  exact hi.old n node hn he

end

/-! ### Samples -/

/-- What an instance does alone, others may do while one waits. -/
theorem among_waiting {ι : Type} [DecidableEq ι] {sha512 : Bytes → Bytes} {args : ι → Args} {others : FS → FS → Prop} {fs0 : FS} (j : ι)
    {cs : List (Change Unit)} {g : Many Unit} (h : ManyRun sha512 (fun _ => args j) others fs0 cs g) :
    ∃ cs', ManyRun sha512 args others fs0 cs' ⟨g.fs, fun i => if i = j then g.place () else .next 0,
      fun i => if i = j then g.stdout () else []⟩ ∧ ∀ i, Reported cs () i → Reported cs' j i := by
  induction h with
  | start => exact ⟨[], by simpa [Many.start] using ManyRun.start, fun i h => by obtain ⟨_, _, h⟩ := h; cases h⟩
  | own cs g k e fs out p hrun ha ih =>
    obtain ⟨cs', h1, h2⟩ := ih
    have h3 := ManyRun.own cs' _ j e fs out p h1 (by simpa using ha)
    have e1 : ∀ {α : Type} (x y z : α), (fun i => if i = j then x else if i = j then y else z) = fun i => if i = j then x else z := by
      intro α x y z; funext i; split <;> rfl
    simp only [e1] at h3
    refine ⟨_, by simpa using h3, ?_⟩
    · intro i hr
      rcases hr.snoc with hr | ⟨f, f', hr⟩
      · exact (h2 i hr).mono _
      · cases hr; exact ⟨_, _, List.mem_append_right _ (List.mem_singleton_self _)⟩
  | others cs g fs hrun ho ih =>
    obtain ⟨cs', h1, h2⟩ := ih
    refine ⟨_, ManyRun.others cs' _ fs h1 ho, fun i hr => ?_⟩
    rcases hr.snoc with hr | ⟨f, f', hr⟩
    · exact (h2 i hr).mono _
    · cases hr

/-- `rypt -g a b` and `rypt -g a`, at once. -/
def twoGenerations (j : Bool) : Args :=
  if j then ⟨false, [(⟨some (.file "a.pub".toList), .file "a".toList⟩, keygenPair 9)]⟩ else ⟨false, keygenPairs⟩

/-- The first one is done with `a`; the second one has begun its pair and has failed, as `a.pub` is there. -/
example : ∃ cs g, ManyRun keygenSha twoGenerations (Respects fun _ => True) keygenFs cs g ∧ Reported cs false 0 ∧
    ∃ f f', Change.own true (.failed 0) f f' ∈ cs := by
  have h1 : (generateKeyPairFiles keygenSha false keygenPairs { keygenWorld with past := [] }).1 = .ok [1] := by decide +kernel
  obtain ⟨cs, g, h2, -, -, h3⟩ := keygen_alone_reports keygenSha false keygenPairs keygenWorld
    (generateKeyPairFiles keygenSha false keygenPairs { keygenWorld with past := [] }).2 (Respects fun _ => True) [1] (by rw [← h1])
  obtain ⟨cs', h4, h5⟩ := among_waiting (args := twoGenerations) false h2
  have hp : (twoGenerations true).pairs[0]? = some (⟨some (.file "a.pub".toList), .file "a".toList⟩, keygenPair 9) := rfl
  have h6 := ManyRun.own _ _ true .tau g.fs [] (.opening 0 0) h4 (.begin _ _ 0 _ _ hp (by rfl))
  have h7 := ManyRun.own _ _ true (.failed 0) g.fs [] (.next 1) h6 (.openFails _ _ 0 0 _ _ _ hp (by rfl))
  exact ⟨_, _, h7, ((h5 0 (h3 0 (by decide) (by decide))).mono _).mono _, _, _, List.mem_append_right _ (List.mem_singleton_self _)⟩

example : (∀ j, (twoGenerations j).force = false) ∧ CoversKeys twoGenerations keygenFs fun _ => True :=
  ⟨by decide, fun _ _ _ => trivial⟩

/-- With other processes that leave everything alone but add a file. -/
example : Respects (fun _ => True) keygenFs (keygenFs.createAt 0) where
  used := createAt_wf (by
    intro n ino h
    simp only [keygenFs] at h ⊢
    split at h
    · cases h; decide
    · cases h) 0
  mono := by simp [FS.createAt]
  loc := rfl
  entry n node _ h := by
    have : n ≠ 0 := by rintro rfl; simp [keygenFs] at h
    simpa [FS.createAt, this] using h
  content n ino _ h := by
    have : ino ≠ keygenFs.nextIno := by
      rintro rfl
      simp only [keygenFs] at h
      split at h <;> simp at h
    simp [FS.createAt, this]

end Rypt.Props

import Verif.Proofs.GenKeysMoments

/-! Properties of key generation. -/

namespace Rypt.Props

open GenKeys Filesystem CryptStreams Cli

/-- C53: without `--force`, whatever fails, everything that was there is still there: every directory entry, and the content of
every file. -/
theorem keygen_keeps_files (sha512 : Bytes → Bytes) (pairs : List (KeyPairOutputStreams × Bytes × Bytes)) (w : World)
    (hwf : w.fs.WF) (n : Name) (node : Node) (h : w.fs.entry n = some node) :
    (generateKeyPairFiles sha512 false pairs w).2.fs.entry n = some node ∧
      ∀ ino, node = .file ino → (generateKeyPairFiles sha512 false pairs w).2.fs.content ino = w.fs.content ino := by
  have hg := genPairs_grow sha512 pairs.length 0 pairs w
  refine ⟨hg.entry n node h, ?_⟩
  rintro ino rfl
  exact hg.content ino (hwf n ino h)

/-- C53: without `--force`, the files of every pair for which no error is reported contain the texts of its keys at the end,
whatever the other pairs and the other files. -/
theorem keygen_written (sha512 : Bytes → Bytes) (pairs : List (KeyPairOutputStreams × Bytes × Bytes)) (w w' : World)
    (hwf : w.fs.WF) (failed : List Nat) (h : generateKeyPairFiles sha512 false pairs w = (.ok failed, w')) (i : Nat)
    (s : KeyPairOutputStreams) (pk sk : Bytes) (hi : pairs[i]? = some (s, pk, sk)) (hf : i ∉ failed) :
    PairWritten sha512 w'.fs s pk sk :=
  genPairs_new pairs hwf h i s pk sk hi (by rw [Nat.zero_add]; exact hf)

/-- C53: with `--force`, the same holds if the files are separate: different paths, different files, no links. -/
theorem keygen_written_forced (sha512 : Bytes → Bytes) (pairs : List (KeyPairOutputStreams × Bytes × Bytes)) (w w' : World)
    (hwf : w.fs.WF) (hs : Separate w.fs (allPaths pairs)) (hnd : (allPaths pairs).Nodup) (failed : List Nat)
    (h : generateKeyPairFiles sha512 true pairs w = (.ok failed, w')) (i : Nat) (s : KeyPairOutputStreams) (pk sk : Bytes)
    (hi : pairs[i]? = some (s, pk, sk)) (hf : i ∉ failed) : PairWritten sha512 w'.fs s pk sk :=
  genPairs_forced (allPaths pairs) pairs hwf hs hnd (fun _ hq => hq) h i s pk sk hi (by rw [Nat.zero_add]; exact hf)

/-- C53: a pair that fails does not keep the others from being dealt with: as long as messages can be printed, the run gets to the
end. -/
theorem keygen_completes (sha512 : Bytes → Bytes) (force : Bool) (pairs : List (KeyPairOutputStreams × Bytes × Bytes)) (w : World)
    (hk : ∀ q ∈ pairs, q.2.2.drop 32 = q.2.1) (ht : w.term.writes = []) :
    ∃ failed w', generateKeyPairFiles sha512 force pairs w = (.ok failed, w') :=
  genPairs_quiet sha512 force pairs.length pairs hk 0 w ht

/-- C53: without `--force`, whatever fails and whenever the program is killed: everything that was there is still there, with its
content; and what is new are files with the names asked for, at places where there was nothing, each with the text of its key or
the beginning of it. -/
theorem keygen_moments (sha512 : Bytes → Bytes) (pairs : List (KeyPairOutputStreams × Bytes × Bytes)) (w : World) (hwf : w.fs.WF)
    (fs : FS) (stdout : Bytes) (h : Moment sha512 false pairs w fs stdout) :
    (∀ n node, w.fs.entry n = some node →
      fs.entry n = some node ∧ ∀ ino, node = .file ino → fs.content ino = w.fs.content ino) ∧
    ∀ n node, fs.entry n = some node → w.fs.entry n = some node ∨
      ∃ q ∈ pairs, ∃ p b, TextFor sha512 q (.file p) b ∧ w.fs.loc p = n ∧ w.fs.entry n = none ∧
        ∃ ino, node = .file ino ∧ fs.content ino <+: b := by
  obtain ⟨hg, hm⟩ := moment_step hwf h
  refine ⟨fun n node hn => ⟨hg.entry n node hn, ?_⟩, hm⟩
  rintro ino rfl
  exact hg.content ino (hwf n ino hn)

/-- C53: with `--force`, whenever the program is killed: a file that is not among those to be written has its content, if it and
those to be written are separate: different files, no links. -/
theorem keygen_forced_moments (sha512 : Bytes → Bytes) (pairs : List (KeyPairOutputStreams × Bytes × Bytes)) (w : World)
    (hwf : w.fs.WF) (fs : FS) (stdout : Bytes) (h : Moment sha512 true pairs w fs stdout) (p : Path) (hp : p ∉ allPaths pairs)
    (hs : Separate w.fs (p :: allPaths pairs)) (c : Bytes) (hc : w.fs.holds p c) : fs.holds p c := by
  obtain ⟨k, hk⟩ := genPairs_keepsP sha512 (p :: allPaths pairs) pairs.length 0 pairs { w with past := [] }
    (fun q hq => List.mem_cons_of_mem _ hq) hwf hs
  rcases h with ⟨rfl, -⟩ | h | ⟨rfl, -⟩
  · exact hc
  · rcases hk _ h with h' | h'
    · cases h'
    · exact h'.others p (List.mem_cons_self ..) hp c hc
  · exact k.others p (List.mem_cons_self ..) hp c hc

/-- C53: standard output gets the private key of the pair for `-`, and nothing else, if there is no error for the pair. -/
theorem keygen_stdout (sha512 : Bytes → Bytes) (force : Bool) (pre post : List (KeyPairOutputStreams × Bytes × Bytes))
    (s : KeyPairOutputStreams) (pk sk : Bytes) (w w' : World) (hpub : s.publicKeyStream ≠ some .stdout) (hpriv : s.privateKeyStream = .stdout)
    (hothers : ∀ q ∈ pre ++ post, q.1.publicKeyStream ≠ some .stdout ∧ q.1.privateKeyStream ≠ .stdout) (failed : List Nat)
    (h : generateKeyPairFiles sha512 force (pre ++ (s, pk, sk) :: post) w = (.ok failed, w')) (hf : pre.length ∉ failed) :
    ∃ priv, KeyText.privateKeyText sha512 pk sk = .ok priv ∧ w'.stdout = w.stdout ++ Text.encode priv :=
  genPairs_adds_ok sha512 force _ s pk sk post hpub hpriv (fun q hq => hothers q (List.mem_append_right _ hq)) pre
    (fun q hq => hothers q (List.mem_append_left _ hq)) 0 w w' failed h (by rw [Nat.zero_add]; exact hf)

/-- C53: whatever fails and whenever the program is killed, standard output got nothing but the beginning of the private key of the
pair for `-`. -/
theorem keygen_stdout_moments (sha512 : Bytes → Bytes) (force : Bool) (pre post : List (KeyPairOutputStreams × Bytes × Bytes))
    (s : KeyPairOutputStreams) (pk sk : Bytes) (w : World) (hpub : s.publicKeyStream ≠ some .stdout) (hpriv : s.privateKeyStream = .stdout)
    (hothers : ∀ q ∈ pre ++ post, q.1.publicKeyStream ≠ some .stdout ∧ q.1.privateKeyStream ≠ .stdout) (fs : FS) (stdout : Bytes)
    (h : Moment sha512 force (pre ++ (s, pk, sk) :: post) w fs stdout) :
    stdout = w.stdout ∨
      ∃ priv c, KeyText.privateKeyText sha512 pk sk = .ok priv ∧ c <+: Text.encode priv ∧ stdout = w.stdout ++ c := by
  obtain ⟨t, ht, ht'⟩ : ∃ t, (∀ priv, KeyText.privateKeyText sha512 pk sk = .ok priv → t = Text.encode priv) ∧
      (t = [] ∨ ∃ priv, KeyText.privateKeyText sha512 pk sk = .ok priv ∧ t = Text.encode priv) := by
    cases hk : KeyText.privateKeyText sha512 pk sk with
    | ok priv => exact ⟨Text.encode priv, fun _ h => by cases h; rfl, .inr ⟨priv, rfl, rfl⟩⟩
    | err e => exact ⟨[], fun _ h => (by cases h), .inl rfl⟩
    | panic => exact ⟨[], fun _ h => (by cases h), .inl rfl⟩
  have fin : ∀ c, c <+: t → stdout = w.stdout ++ c → stdout = w.stdout ∨
      ∃ priv c, KeyText.privateKeyText sha512 pk sk = .ok priv ∧ c <+: Text.encode priv ∧ stdout = w.stdout ++ c := by
    rintro c hc ho
    rcases ht' with rfl | ⟨priv, hk, rfl⟩
    · rw [List.prefix_nil.mp hc, List.append_nil] at ho
      exact .inl ho
    · exact .inr ⟨priv, c, hk, hc, ho⟩
  obtain ⟨⟨c, hc, ho⟩, hpast⟩ := genPairs_adds sha512 force (pre ++ (s, pk, sk) :: post).length s pk sk post hpub hpriv
    (fun q hq => hothers q (List.mem_append_right _ hq)) t ht pre (fun q hq => hothers q (List.mem_append_left _ hq)) 0
    { w with past := [] }
  rcases h with ⟨-, rfl⟩ | h | ⟨-, rfl⟩
  · exact .inl rfl
  · rcases hpast _ h with h' | ⟨c, hc, ho⟩
    · cases h'
    · exact fin c hc ho
  · exact fin c hc ho

/-- C53: standard output gets nothing if no pair is for `-`. -/
theorem keygen_stdout_untouched (sha512 : Bytes → Bytes) (force : Bool) (pairs : List (KeyPairOutputStreams × Bytes × Bytes)) (w : World)
    (h : ∀ q ∈ pairs, q.1.publicKeyStream ≠ some .stdout ∧ q.1.privateKeyStream ≠ .stdout) (fs : FS) (stdout : Bytes)
    (hm : Moment sha512 force pairs w fs stdout) : stdout = w.stdout := by
  obtain ⟨he, hpast⟩ := genPairs_same sha512 force pairs.length 0 pairs { w with past := [] } h
  rcases hm with ⟨-, rfl⟩ | hm | ⟨-, rfl⟩
  · rfl
  · rcases hpast _ hm with h' | h'
    · cases h'
    · exact h'
  · exact he

/-- C76: what is shown on the terminal, and which operations fail, depends on the public keys only: private keys are not shown. -/
theorem keygen_hides_private (sha512 : Bytes → Bytes) (force : Bool) (a b : List (KeyPairOutputStreams × Bytes × Bytes)) (w : World)
    (h : SamePublic a b) :
    (generateKeyPairFiles sha512 force b w).1 = (generateKeyPairFiles sha512 force a w).1 ∧
      (generateKeyPairFiles sha512 force b w).2.term = (generateKeyPairFiles sha512 force a w).2.term := by
  have hlen : b.length = a.length := h.length_eq.symm
  rw [generateKeyPairFiles, generateKeyPairFiles, hlen]
  have := sim_genPairs sha512 force a.length h 0 w w ⟨rfl, rfl, rfl, rfl, rfl⟩
  exact ⟨this.res, this.world.term⟩

/-! ### A sample world -/

/-- Paths are `a`, `a.pub`, `b`, `b.pub`, others; the file `b` exists. -/
def keygenFs : FS where
  loc p := if p = "a".toList then 0 else if p = "a.pub".toList then 1 else if p = "b".toList then 2 else if p = "b.pub".toList then 3 else 4
  entry n := if n = 2 then some (.file 0) else none
  content i := if i = 0 then [7] else []
  nlink _ := 1
  nextIno := 1
  linkSize _ := 0

def keygenTerm : UI.Term := ⟨[], true, true, true, 0, Spec.sampleTty, [], [], []⟩

def keygenWorld : World := ⟨keygenTerm, keygenFs, [], [], []⟩

def keygenPair (x : UInt8) : Bytes × Bytes := (List.replicate 32 x, List.replicate 32 (x + 1) ++ List.replicate 32 x)

def keygenSha (b : Bytes) : Bytes := b ++ List.replicate 64 0

/-- `rypt -g a b`. -/
def keygenPairs : List (KeyPairOutputStreams × Bytes × Bytes) :=
  [(⟨some (.file "a.pub".toList), .file "a".toList⟩, keygenPair 1), (⟨some (.file "b.pub".toList), .file "b".toList⟩, keygenPair 5)]

example : keygenFs.WF := by
  intro n ino h
  simp only [keygenFs] at h ⊢
  split at h
  · cases h; decide
  · cases h

example : (generateKeyPairFiles keygenSha false keygenPairs keygenWorld).1 = .ok [1] := by decide +kernel

example : (generateKeyPairFiles keygenSha true keygenPairs keygenWorld).1 = .ok [] := by decide +kernel

example : (allPaths keygenPairs).Nodup := by decide +kernel

example : Separate keygenFs (allPaths keygenPairs) := by
  have he : allPaths keygenPairs = ["a.pub".toList, "a".toList, "b.pub".toList, "b".toList] := by decide +kernel
  rw [he]
  have hplain : ∀ n, keygenFs.entry n = none ∨ ∃ ino, keygenFs.entry n = some (.file ino) := by
    intro n
    by_cases h : n = 2 <;> simp [keygenFs, h]
  have hloc : ∀ p ∈ ["a.pub".toList, "a".toList, "b.pub".toList, "b".toList],
      ∀ q ∈ ["a.pub".toList, "a".toList, "b.pub".toList, "b".toList], p ≠ q → keygenFs.loc p ≠ keygenFs.loc q := by decide +kernel
  refine ⟨fun p _ => hplain _, hloc, ?_⟩
  intro p hp q hq ino hne h1 h2
  have h3 : ∀ n, keygenFs.entry n = some (.file ino) → n = 2 := by
    intro n h
    by_contra hn
    simp [keygenFs, hn] at h
  exact hloc p hp q hq hne (by rw [h3 _ h1, h3 _ h2])

/-- `rypt -g a - b`. -/
def keygenDashPairs : List (KeyPairOutputStreams × Bytes × Bytes) :=
  [(⟨some (.file "a.pub".toList), .file "a".toList⟩, keygenPair 1), (⟨none, .stdout⟩, keygenPair 3),
    (⟨some (.file "b.pub".toList), .file "b".toList⟩, keygenPair 5)]

example : (generateKeyPairFiles keygenSha false keygenDashPairs keygenWorld).1 = .ok [2] := by decide +kernel

/-- Killed after ten bytes of the first private key. -/
example : ∃ fs stdout, Moment keygenSha false keygenDashPairs keygenWorld fs stdout ∧ fs.entry 0 = some (.file 2) ∧
    (fs.content 2).length = 10 ∧ (fs.content 1).length = 65 ∧ stdout = [] := by
  have h : ((generateKeyPairFiles keygenSha false keygenDashPairs keygenWorld).2.past.map
      fun s => (s.1.entry 0, (s.1.content 2).length, (s.1.content 1).length, s.2))[76]? = some (some (.file 2), 10, 65, []) := by
    decide +kernel
  rw [List.getElem?_map, Option.map_eq_some_iff] at h
  obtain ⟨⟨fs, stdout⟩, hm, he⟩ := h
  simp only [Prod.mk.injEq] at he
  exact ⟨fs, stdout, .inr (.inl (List.mem_of_getElem? hm)), he⟩

/-- Killed after ten bytes of the key for standard output. -/
example : ∃ fs stdout, Moment keygenSha false keygenDashPairs keygenWorld fs stdout ∧ stdout.length = 10 := by
  have h : ((generateKeyPairFiles keygenSha false keygenDashPairs keygenWorld).2.past.map fun s => s.2.length)[206]? = some 10 := by
    decide +kernel
  rw [List.getElem?_map, Option.map_eq_some_iff] at h
  obtain ⟨⟨fs, stdout⟩, hm, he⟩ := h
  exact ⟨fs, stdout, .inr (.inl (List.mem_of_getElem? hm)), he⟩

example : SamePublic keygenPairs
    [(⟨some (.file "a.pub".toList), .file "a".toList⟩, List.replicate 32 1, List.replicate 32 9 ++ List.replicate 32 1),
      (⟨some (.file "b.pub".toList), .file "b".toList⟩, List.replicate 32 5, List.replicate 32 0 ++ List.replicate 32 5)] :=
  .cons (by decide +kernel) (.cons (by decide +kernel) .nil)

/-- C53, finding: when the private key file cannot be created because it exists, the public key file is left behind: a public key
without a private key. -/
theorem keygen_orphan_public_key (sha512 : Bytes → Bytes) (pk sk : Bytes) (w : World) (p q : Path) (hk : sk.drop 32 = pk)
    (ht : w.term.writes = []) (hfa : w.fates = []) (hex : w.fs.entry (w.fs.loc p) ≠ none) (hq : w.fs.entry (w.fs.loc q) = none) :
    ∃ w', generateKeyPairFiles sha512 false [(⟨some (.file q), .file p⟩, pk, sk)] w = (.ok [0], w') ∧
      w'.fs.holds q (Text.encode (KeyText.publicKeyText sha512 pk)) := by
  obtain ⟨v, h1, h2⟩ := genPair_orphan ht hfa sha512 1 0 pk sk hk p q hex hq
  refine ⟨v, ?_, h2⟩
  simp only [generateKeyPairFiles, genPairs, List.length_singleton, h1, if_true]

example : (keygenPair 5).2.drop 32 = (keygenPair 5).1 ∧ keygenWorld.term.writes = [] ∧ keygenWorld.fates = [] ∧
    keygenFs.entry (keygenFs.loc "b".toList) ≠ none ∧ keygenFs.entry (keygenFs.loc "b.pub".toList) = none := by decide +kernel

/-- `rypt -g --force a.x a.y`, say: the public keys go to the same file. -/
def collidingPairs : List (KeyPairOutputStreams × Bytes × Bytes) :=
  [(⟨some (.file "a.pub".toList), .file "a".toList⟩, keygenPair 1), (⟨some (.file "a.pub".toList), .file "b".toList⟩, keygenPair 5)]

/-- C53, finding: with `--force`, two pairs can share a public key file (`a.x` and `a.y`, see `public_paths_can_collide`); the run
succeeds, and the first public key is lost. -/
theorem keygen_forced_collision :
    ∃ w', generateKeyPairFiles keygenSha true collidingPairs keygenWorld = (.ok [], w') ∧
      ∃ s pk sk, collidingPairs[0]? = some (s, pk, sk) ∧ ¬ PairWritten keygenSha w'.fs s pk sk := by
  have h1 : (generateKeyPairFiles keygenSha true collidingPairs keygenWorld).1 = .ok [] := by decide +kernel
  have h2 : (generateKeyPairFiles keygenSha true collidingPairs keygenWorld).2.fs.entry
      ((generateKeyPairFiles keygenSha true collidingPairs keygenWorld).2.fs.loc "a.pub".toList) = some (.file 1) ∧
      (generateKeyPairFiles keygenSha true collidingPairs keygenWorld).2.fs.content 1 ≠
        Text.encode (KeyText.publicKeyText keygenSha (keygenPair 1).1) := by decide +kernel
  refine ⟨(generateKeyPairFiles keygenSha true collidingPairs keygenWorld).2, by rw [← h1], _, _, _, rfl, ?_⟩
  rintro ⟨_, _, hp, _⟩
  obtain ⟨ino, ha, hb⟩ := hp _ rfl
  rw [h2.1] at ha
  cases ha
  exact h2.2 hb

end Rypt.Props

import Verif.Spec.GenKeysShared
import Verif.Proofs.Shared
import Verif.Proofs.GenKeysMoments

/-! Key generation among other processes, and several key generations at once. -/

namespace Rypt.GenKeys

open Filesystem CryptStreams Cli

variable {ι : Type} {sha512 : Bytes → Bytes} {args : ι → Args} {fs0 : FS}

def part (sha512 : Bytes → Bytes) (a : Args) (i m : Nat) : Option (Output × Bytes) :=
  match a.pairs[i]? with
  | some q => (parts sha512 q)[m]?
  | none => none

theorem part_of {a : Args} {i m : Nat} {q : KeyPairOutputStreams × Bytes × Bytes} {x : Output × Bytes}
    (h1 : a.pairs[i]? = some q) (h2 : (parts sha512 q)[m]? = some x) : part sha512 a i m = some x := by
  simp [part, h1, h2]

theorem of_part {a : Args} {i m : Nat} {x : Output × Bytes} (h : part sha512 a i m = some x) :
    ∃ q, a.pairs[i]? = some q ∧ (parts sha512 q)[m]? = some x := by
  unfold part at h
  split at h
  · exact ⟨_, by assumption, h⟩
  · cases h

theorem textFor_of_parts {q : KeyPairOutputStreams × Bytes × Bytes} {o : Output} {b : Bytes} (h : (o, b) ∈ parts sha512 q) :
    TextFor sha512 q o b := by
  unfold parts at h
  split at h
  · rename_i priv hk
    simp only [List.mem_append, List.mem_map, Option.mem_toList, Prod.mk.injEq, List.mem_singleton] at h
    rcases h with ⟨o', h1, rfl, rfl⟩ | ⟨rfl, rfl⟩
    · exact .inl ⟨h1, rfl⟩
    · exact .inr ⟨rfl, priv, hk, rfl⟩
  · cases h

theorem path_of_textFor {q : KeyPairOutputStreams × Bytes × Bytes} {p : Path} {b : Bytes} (h : TextFor sha512 q (.file p) b) :
    p ∈ pairPaths q.1 := by
  rcases h with ⟨h, -⟩ | ⟨h, -⟩
  · exact mem_pairPaths (.inl h.symm) rfl
  · exact mem_pairPaths (.inr h.symm) rfl

theorem path_of_part {a : Args} {i m : Nat} {p : Path} {b : Bytes} (h : part sha512 a i m = some (.file p, b)) :
    p ∈ allPaths a.pairs := by
  obtain ⟨q, h1, h2⟩ := of_part h
  exact mem_allPaths (List.mem_of_getElem? h1) (path_of_textFor (textFor_of_parts (List.mem_of_getElem? h2)))

/-! ### Any other processes -/

theorem MadeBy.mono {cs : List (Change ι)} {j : ι} {p : Path} {ino : Nat} (h : MadeBy cs j p ino) (cs' : List (Change ι)) :
    MadeBy (cs ++ cs') j p ino := by
  obtain ⟨e, f, f', hm, h⟩ := h
  exact ⟨e, f, f', by simp [hm], h⟩

theorem DenotedBy.mono {cs : List (Change ι)} {j : ι} {p : Path} {ino : Nat} (h : DenotedBy cs j p ino) (cs' : List (Change ι)) :
    DenotedBy (cs ++ cs') j p ino := by
  obtain ⟨e, f, f', n, hm, h⟩ := h
  exact ⟨e, f, f', n, by simp [hm], h⟩

/-- What may be written to. -/
def Mine (args : ι → Args) (cs : List (Change ι)) (j : ι) (o : Output) (sink : Sink) : Prop :=
  ∀ ino, sink = .handle (.file ino) → ∃ p, o = .file p ∧ DenotedBy cs j p ino ∧ ((args j).force = false → MadeBy cs j p ino)

theorem Mine.mono {cs : List (Change ι)} {j : ι} {o : Output} {sink : Sink} (h : Mine args cs j o sink) (cs' : List (Change ι)) :
    Mine args (cs ++ cs') j o sink := by
  intro ino hi
  obtain ⟨p, h1, h2, h3⟩ := h ino hi
  exact ⟨p, h1, h2.mono _, fun hf => (h3 hf).mono _⟩

structure AnyInv (sha512 : Bytes → Bytes) (args : ι → Args) (cs : List (Change ι)) (g : Many ι) : Prop where
  wf : g.fs.WF
  writing : ∀ j i m sink b k, g.place j = .writing i m sink b k → ∃ o, part sha512 (args j) i m = some (o, b) ∧ Mine args cs j o sink

/-- What one change by instance `j` does to the files, after the changes `cs`. -/
structure Effect (sha512 : Bytes → Bytes) (args : ι → Args) (cs : List (Change ι)) (j : ι) (e : Event) (f f' : FS) : Prop where
  loc : f'.loc = f.loc
  content : ∀ ino, f'.content ino ≠ f.content ino → ∃ q ∈ (args j).pairs, ∃ p b, TextFor sha512 q (.file p) b ∧
    DenotedBy (cs ++ [.own j e f f']) j p ino ∧ ((args j).force = false → MadeBy (cs ++ [.own j e f f']) j p ino) ∧
    (f'.content ino = [] ∨ ByteOf b (f.content ino) (f'.content ino))
  entry : ∀ n, f'.entry n ≠ f.entry n → f.entry n = none ∧ ∃ p ∈ allPaths (args j).pairs, ∃ ino, f.Leads (f.loc p) n ∧
    ((args j).force = false → n = f.loc p) ∧ f'.entry n = some (.file ino) ∧ f.nextIno ≤ ino ∧ ∀ m, f.entry m ≠ some (.file ino)

theorem Effect.same {cs : List (Change ι)} {j : ι} (e : Event) (f : FS) : Effect sha512 args cs j e f f :=
  ⟨rfl, fun _ h => absurd rfl h, fun _ h => absurd rfl h⟩

theorem writeByte_wf {fs : FS} (h : fs.WF) (ino k : Nat) (x : UInt8) : (fs.writeByte ino k x).WF := h

theorem byteOf_write {b : Bytes} {k : Nat} {x : UInt8} (hk : b[k]? = some x) (c : Bytes) :
    ByteOf b c (c.take k ++ List.replicate (k - c.length) 0 ++ x :: c.drop (k + 1)) := by
  have hlen : (c.take k ++ List.replicate (k - c.length) (0 : UInt8)).length = k := by simp; omega
  refine ⟨k, x, hk, ?_, ?_, ?_⟩
  · rw [List.getElem?_append_right (by omega), hlen]; simp
  · intro i hi hl
    rcases Nat.lt_or_ge i k with h | h
    · rw [List.getElem?_append_left (by omega), List.getElem?_append_left (by simp; omega), List.getElem?_take_of_lt h]
    · rw [List.getElem?_append_right (by omega), hlen, List.getElem?_cons]
      rw [if_neg (by omega), List.getElem?_drop]
      congr 1; omega
  · simp; omega

/-- Opening a key file. -/
theorem open_effect {cs : List (Change ι)} {j : ι} {fs fs' : FS} (hwf : fs.WF) {q : KeyPairOutputStreams × Bytes × Bytes}
    (hq : q ∈ (args j).pairs) {o : Output} {b : Bytes} (ht : TextFor sha512 q o b) {sink : Sink}
    (ho : openOutput fs (args j).force o = some (fs', sink)) :
    fs'.WF ∧ Effect sha512 args cs j .tau fs fs' ∧ Mine args (cs ++ [.own j .tau fs fs']) j o sink := by
  cases o with
  | stdout =>
    simp only [CryptStreams.openOutput, Option.some.injEq, Prod.mk.injEq] at ho
    obtain ⟨rfl, rfl⟩ := ho
    exact ⟨hwf, .same _ _, by rintro _ ⟨⟩⟩
  | file p =>
    have hp : p ∈ allPaths (args j).pairs := mem_allPaths hq (path_of_textFor ht)
    have hfresh : ∀ m, fs.entry m ≠ some (.file fs.nextIno) := fun m hm => by have := hwf m _ hm; omega
    have hnew : ∀ n, fs.Leads (fs.loc p) n → fs.entry n = none → ((args j).force = false → n = fs.loc p) →
        (fs.createAt n).WF ∧ Effect sha512 args cs j .tau fs (fs.createAt n) ∧
          Mine args (cs ++ [.own j .tau fs (fs.createAt n)]) j (.file p) (.handle (.file fs.nextIno)) := by
      intro n hl hn hf
      have hden : DenotedBy (cs ++ [.own j .tau fs (fs.createAt n)]) j p fs.nextIno :=
        ⟨.tau, fs, fs.createAt n, n, by simp, leads_createAt hn hl, by simp [FS.createAt], by simp [FS.createAt]⟩
      have hmade : (args j).force = false → MadeBy (cs ++ [.own j .tau fs (fs.createAt n)]) j p fs.nextIno := fun h =>
        ⟨.tau, fs, fs.createAt n, by simp, by rw [← hf h]; exact hn, by rw [← hf h]; simp [FS.createAt], Nat.le_refl _, hfresh⟩
      refine ⟨createAt_wf hwf n, ⟨rfl, ?_, ?_⟩, ?_⟩
      · intro ino hi
        obtain rfl : ino = fs.nextIno := by
          by_contra hne
          exact hi (by simp [FS.createAt, hne])
        exact ⟨q, hq, p, b, ht, hden, hmade, .inl (by simp [FS.createAt])⟩
      · intro m hm
        obtain rfl : m = n := by
          by_contra hne
          exact hm (by simp [FS.createAt, hne])
        exact ⟨hn, p, hp, fs.nextIno, hl, hf, by simp [FS.createAt], Nat.le_refl _, hfresh⟩
      · rintro ino ⟨⟩
        exact ⟨p, rfl, hden, hmade⟩
    simp only [CryptStreams.openOutput] at ho
    split at ho
    · rename_i fs1 h heq
      cases ho
      split at heq
      · rename_i hforce
        unfold FS.createTrunc at heq
        split at heq
        · cases heq
        · rename_i n hn
          have hl := follow_leads_here _ _ _ hn
          split at heq
          · rename_i he
            cases heq
            exact hnew n hl he (by simp [hforce])
          · rename_i ino he
            cases heq
            have hden : DenotedBy (cs ++ [.own j .tau fs (fs.setContent ino [])]) j p ino :=
              ⟨.tau, fs, fs.setContent ino [], n, by simp, leads_setContent hl, he, by simp [FS.setContent]⟩
            refine ⟨hwf, ⟨rfl, ?_, fun _ h => absurd rfl h⟩, ?_⟩
            · intro i hi
              obtain rfl : i = ino := by
                by_contra hne
                exact hi (by simp [FS.setContent, hne])
              exact ⟨q, hq, p, b, ht, hden, by simp [hforce], .inl (by simp [FS.setContent])⟩
            · rintro i ⟨⟩
              exact ⟨p, rfl, hden, by simp [hforce]⟩
          · cases heq
            exact ⟨hwf, .same _ _, by rintro _ ⟨⟩⟩
          · cases heq
      · unfold FS.createNew at heq
        split at heq
        · cases heq
        · rename_i he
          cases heq
          exact hnew _ (.here _) he (fun _ => rfl)
    · cases ho

theorem putByte_fs (fs : FS) (out : Bytes) (sink : Sink) (k : Nat) (x : UInt8) :
    (putByte fs out sink k x).1 = fs ∨ ∃ ino, sink = .handle (.file ino) ∧ (putByte fs out sink k x).1 = fs.writeByte ino k x := by
  unfold putByte
  split
  · exact .inr ⟨_, rfl, rfl⟩
  · exact .inl rfl
  · exact .inl rfl

theorem any_run [DecidableEq ι] {R : FS → FS → Prop} (hR : ∀ f f', R f f' → Others f f') (hwf : fs0.WF) {cs : List (Change ι)} {g : Many ι}
    (h : ManyRun sha512 args R fs0 cs g) : AnyInv sha512 args cs g ∧
      ∀ pre post j e f f', cs = pre ++ .own j e f f' :: post → Effect sha512 args pre j e f f' := by
  induction h with
  | start => exact ⟨⟨hwf, by intro j i m sink b k h; cases h⟩, by intro pre post j e f f' h; simp at h⟩
  | others cs g fs hrun ho ih =>
    obtain ⟨hi, hg⟩ := ih
    refine ⟨⟨(hR _ _ ho).used, fun j i m sink b k hp => ?_⟩, fun pre post j e f f' h => ?_⟩
    · obtain ⟨o, h1, h2⟩ := hi.writing j i m sink b k hp
      exact ⟨o, h1, h2.mono _⟩
    · rcases List.eq_nil_or_concat post with rfl | ⟨post', c, rfl⟩
      · have := (List.append_inj' h rfl).2
        simp at this
      · rw [List.concat_eq_append, show pre ++ Change.own j e f f' :: (post' ++ [c]) = (pre ++ .own j e f f' :: post') ++ [c] by simp] at h
        exact hg pre post' j e f f' (List.append_inj' h rfl).1
  | own cs g j e fs out p hrun ha ih =>
    obtain ⟨hi, hg⟩ := ih
    have key : fs.WF ∧ Effect sha512 args cs j e g.fs fs ∧ (∀ i m sink b k, p = .writing i m sink b k →
        ∃ o, part sha512 (args j) i m = some (o, b) ∧ Mine args (cs ++ [.own j e g.fs fs]) j o sink) := by
      have hpl := hi.writing j
      generalize g.place j = pl at ha hpl
      generalize hf : g.fs = gf at ha
      have hw : gf.WF := hf ▸ hi.wf
      cases ha with
      | «begin» => exact ⟨hw, .same _ _, by rintro i m sink b k ⟨⟩⟩
      | openFile i m q o b _ sink h1 h2 h3 =>
        obtain ⟨k1, k2, k3⟩ := open_effect (cs := cs) hw (List.mem_of_getElem? h1) (textFor_of_parts (List.mem_of_getElem? h2)) h3
        refine ⟨k1, k2, ?_⟩
        rintro _ _ _ _ _ ⟨⟩
        exact ⟨o, part_of h1 h2, k3⟩
      | openFails => exact ⟨hw, .same _ _, by rintro i m sink b k ⟨⟩⟩
      | write i m sink b k x hx =>
        obtain ⟨o, h1, h2⟩ := hpl i m sink b k rfl
        obtain ⟨q, hq1, hq2⟩ := of_part h1
        have hm : ∀ cs', Mine args (cs ++ cs') j o sink := fun cs' => h2.mono cs'
        rcases putByte_fs gf (g.stdout j) sink k x with hs | ⟨ino, rfl, hs⟩
        · rw [hs]
          refine ⟨hw, .same _ _, ?_⟩
          rintro _ _ _ _ _ ⟨⟩
          exact ⟨o, h1, hm _⟩
        · rw [hs]
          refine ⟨writeByte_wf hw _ _ _, ⟨rfl, fun i' hi' => ?_, fun _ h => absurd rfl h⟩, ?_⟩
          · obtain rfl : i' = ino := by
              by_contra hne
              exact hi' (by simp [FS.writeByte, hne])
            obtain ⟨p, rfl, h3, h4⟩ := h2 i' rfl
            refine ⟨q, List.mem_of_getElem? hq1, p, b, textFor_of_parts (List.mem_of_getElem? hq2), h3.mono _,
              fun hf => (h4 hf).mono _, .inr ?_⟩
            simpa [FS.writeByte] using byteOf_write hx (gf.content i')
          · rintro _ _ _ _ _ ⟨⟩
            exact ⟨o, h1, hm _⟩
      | writeFails => exact ⟨hw, .same _ _, by rintro i m sink b k ⟨⟩⟩
      | close => exact ⟨hw, .same _ _, by rintro i m sink b k ⟨⟩⟩
      | finish => exact ⟨hw, .same _ _, by rintro i m sink b k ⟨⟩⟩
    obtain ⟨k1, k2, k3⟩ := key
    refine ⟨⟨k1, fun j' i m sink b k hp => ?_⟩, fun pre post j' e' f f' h => ?_⟩
    · simp only at hp
      split at hp
      · rename_i hj
        subst hj
        exact k3 i m sink b k hp
      · obtain ⟨o, h1, h2⟩ := hi.writing j' i m sink b k hp
        exact ⟨o, h1, h2.mono _⟩
    · rcases List.eq_nil_or_concat post with rfl | ⟨post', c, rfl⟩
      · obtain ⟨h1, h2⟩ := List.append_inj' h rfl
        simp only [List.cons.injEq, and_true, Change.own.injEq] at h2
        obtain ⟨rfl, rfl, rfl, rfl⟩ := h2
        rw [← h1]
        exact k2
      · rw [List.concat_eq_append, show pre ++ Change.own j' e' f f' :: (post' ++ [c]) = (pre ++ .own j' e' f f' :: post') ++ [c] by simp] at h
        exact hg pre post' j' e' f f' (List.append_inj' h rfl).1

end Rypt.GenKeys

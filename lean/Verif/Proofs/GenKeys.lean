import Verif.Spec.GenKeys
import Mathlib.Tactic.ByContra
import Mathlib.Tactic.SplitIfs

/-! Lemmas on writing key pairs. -/

namespace Rypt.GenKeys

open Filesystem CryptStreams Cli

theorem andThen_fst_ok {α : Type} {r : Res Unit × World} {f : World → Res α × World} {a : α} {w' : World}
    (h : andThen r f = (.ok a, w')) : r.1 = .ok () ∧ f r.2 = (.ok a, w') := by
  obtain ⟨r1, w⟩ := r
  cases r1 with
  | ok u => exact ⟨rfl, h⟩
  | err e => cases h
  | panic => cases h

theorem println_tty (t : UI.Term) (v : Int) (m : List Char) : (UI.println t v m).2.tty = t.tty := by
  unfold UI.println UI.print
  split
  · unfold UI.writeAll; split <;> rfl
  · rfl

theorem printError_tty (t : UI.Term) (n m : List Char) : (UI.printError t n m).2.tty = t.tty := by
  unfold UI.printError
  split
  · unfold UI.writeAll; split <;> rfl
  · rfl

/-- The terminal after a message. -/
structure Printed (t t' : UI.Term) : Prop where
  tty : t'.tty = t.tty
  quiet : t.verbosity ≤ -2 → t' = t

theorem println_printed (t : UI.Term) (v : Int) (hv : -1 ≤ v) (m : List Char) : Printed t (UI.println t v m).2 :=
  ⟨println_tty t v m, fun h => by unfold UI.println UI.print; rw [if_neg (by simp [UI.willPrint]; omega)]⟩

theorem printError_printed (t : UI.Term) (n m : List Char) : Printed t (UI.printError t n m).2 :=
  ⟨printError_tty t n m, fun h => by
    have : ¬ (-1 ≤ t.verbosity) := by omega
    unfold UI.printError
    rw [if_neg (show ¬ UI.willPrint t UI.errorVerbosity = true from fun h => this (of_decide_eq_true h))]⟩

section Rel

variable (R : World → World → Prop) (hrefl : ∀ w, R w w) (htrans : ∀ a b c, R a b → R b c → R a c)
  (hterm : ∀ (w : World) (t : UI.Term), Printed w.term t → R w { w with term := t })

include htrans in
theorem andThen_rel {α : Type} {w0 : World} {r : Res Unit × World} {f : World → Res α × World} (h1 : R w0 r.2)
    (h2 : ∀ w, R w (f w).2) : R w0 (andThen r f).2 := by
  obtain ⟨r1, w⟩ := r
  cases r1 with
  | ok u => exact htrans _ _ _ h1 (h2 w)
  | err e => exact h1
  | panic => exact h1

include hrefl htrans hterm in
theorem writePair_rel (force : Bool) (s : KeyPairOutputStreams) (pub priv : List Char) (w : World)
    (hw : ∀ w out b, (some out = s.publicKeyStream ∨ out = s.privateKeyStream) → R w (writeFile w force out b).2) :
    R w (writePair w force s pub priv).2 := by
  rw [writePair]
  apply andThen_rel R htrans
  · split
    · exact hrefl w
    · rename_i out hout
      exact andThen_rel R htrans (hterm w _ (println_printed _ _ (by decide) _)) fun w => hw w out _ (.inl hout.symm)
  · intro w
    exact andThen_rel R htrans (hterm w _ (println_printed _ _ (by decide) _)) fun w => hw w _ _ (.inr rfl)

include hrefl htrans hterm in
theorem reportPair_rel {w0 : World} {r : Res Unit × World} (h : R w0 r.2) : R w0 (reportPair r).2 := by
  rw [reportPair.eq_def]
  split
  · exact h
  · refine htrans _ _ _ h ?_
    exact andThen_rel R htrans (hterm _ _ (println_printed _ _ (by decide) _)) fun w => hrefl w
  · refine htrans _ _ _ h ?_
    refine andThen_rel R htrans (hterm _ _ (printError_printed _ _ _)) fun w => ?_
    exact andThen_rel R htrans (hterm _ _ (println_printed _ _ (by decide) _)) fun w => hrefl w

include hrefl htrans hterm in
theorem genPair_rel (sha512 : Bytes → Bytes) (force : Bool) (total idx : Nat) (s : KeyPairOutputStreams) (pk sk : Bytes) (w : World)
    (hw : ∀ w out b, (some out = s.publicKeyStream ∨ out = s.privateKeyStream) → R w (writeFile w force out b).2) :
    R w (genPair sha512 force total idx s pk sk w).2 := by
  rw [genPair]
  split
  · exact hrefl w
  · exact hrefl w
  · refine andThen_rel R htrans (hterm _ _ (println_printed _ _ (by decide) _)) fun w => ?_
    refine andThen_rel R htrans (hterm _ _ (println_printed _ _ (by decide) _)) fun w => ?_
    exact reportPair_rel R hrefl htrans hterm (writePair_rel R hrefl htrans hterm force s _ _ w hw)

include hrefl htrans hterm in
theorem genPairs_rel (sha512 : Bytes → Bytes) (force : Bool) (total : Nat) (pairs : List (KeyPairOutputStreams × Bytes × Bytes))
    (idx : Nat) (w : World)
    (hw : ∀ w out b, (∃ q ∈ pairs, some out = q.1.publicKeyStream ∨ out = q.1.privateKeyStream) →
      R w (writeFile w force out b).2) :
    R w (genPairs sha512 force total idx pairs w).2 := by
  induction pairs generalizing idx w with
  | nil => exact hrefl w
  | cons q rest ih =>
    obtain ⟨s, pk, sk⟩ := q
    have h1 := genPair_rel R hrefl htrans hterm sha512 force total idx s pk sk w
      fun w out b h => hw w out b ⟨_, List.mem_cons_self .., h⟩
    rw [genPairs]
    split
    · rename_i heq; rw [heq] at h1; exact h1
    · rename_i heq; rw [heq] at h1; exact h1
    · rename_i failed w1 heq
      rw [heq] at h1
      have h2 := ih (idx + 1) w1 fun w out b ⟨q, hq, h⟩ => hw w out b ⟨q, List.mem_cons_of_mem _ hq, h⟩
      split
      · rename_i more w2 heq2
        rw [heq2] at h2
        exact htrans _ _ _ h1 h2
      · exact htrans _ _ _ h1 h2

end Rel

/-- Key generation does not touch the settings of the terminal. -/
theorem genPairs_tty (sha512 : Bytes → Bytes) (force : Bool) (total : Nat) (pairs : List (KeyPairOutputStreams × Bytes × Bytes))
    (idx : Nat) (w : World) : (genPairs sha512 force total idx pairs w).2.term.tty = w.term.tty := by
  refine genPairs_rel (fun a b : World => b.term.tty = a.term.tty) (fun _ => rfl) (fun _ _ _ h1 h2 => h2.trans h1) (fun _ _ h => h.tty)
    sha512 force total pairs idx w fun w out b _ => ?_
  have hput : ∀ (w : World) (sink : Sink) (b : Bytes), (World.put w sink b).term = w.term := by
    intro w sink b; unfold World.put; split <;> rfl
  unfold writeFile
  split
  · rfl
  · split
    · rfl
    · unfold writeAll
      split <;> simp only [hput]

/-- Key generation writes no messages with `-qq`. -/
theorem genPairs_hush (sha512 : Bytes → Bytes) (force : Bool) (total : Nat) (pairs : List (KeyPairOutputStreams × Bytes × Bytes))
    (idx : Nat) (w : World) (hq : w.term.verbosity ≤ -2) : (genPairs sha512 force total idx pairs w).2.term = w.term := by
  refine genPairs_rel (fun a b : World => a.term.verbosity ≤ -2 → b.term = a.term) (fun _ _ => rfl)
    (fun _ _ _ h1 h2 h => by have := h1 h; rw [h2 (by rw [this]; exact h), this]) (fun _ _ h => h.quiet)
    sha512 force total pairs idx w (fun w out b _ _ => ?_) hq
  have hput : ∀ (w : World) (sink : Sink) (b : Bytes), (World.put w sink b).term = w.term := by
    intro w sink b; unfold World.put; split <;> rfl
  unfold writeFile
  split
  · rfl
  · split
    · rfl
    · unfold writeAll
      split <;> simp only [hput]

/-- Nothing but new files. -/
structure Grow (fs fs' : FS) : Prop where
  loc : fs'.loc = fs.loc
  entry : ∀ n node, fs.entry n = some node → fs'.entry n = some node
  next : fs.nextIno ≤ fs'.nextIno
  content : ∀ ino, ino < fs.nextIno → fs'.content ino = fs.content ino
  wf : fs.WF → fs'.WF

theorem Grow.refl (fs : FS) : Grow fs fs := ⟨rfl, fun _ _ h => h, Nat.le_refl _, fun _ _ => rfl, id⟩

theorem Grow.trans {a b c : FS} (h1 : Grow a b) (h2 : Grow b c) : Grow a c where
  loc := by rw [h2.loc, h1.loc]
  entry n node h := h2.entry n node (h1.entry n node h)
  next := Nat.le_trans h1.next h2.next
  content ino h := by rw [h2.content ino (Nat.lt_of_lt_of_le h h1.next), h1.content ino h]
  wf h := h2.wf (h1.wf h)

theorem Grow.holds {a b : FS} (h : Grow a b) (hwf : a.WF) {p : Path} {c : Bytes} (hp : a.holds p c) : b.holds p c := by
  obtain ⟨ino, h1, h2⟩ := hp
  refine ⟨ino, ?_, ?_⟩
  · rw [h.loc]; exact h.entry _ _ h1
  · rw [h.content ino (hwf _ _ h1), h2]

theorem createNew_spec {fs fs' : FS} {p : Path} {h : Handle} (he : fs.createNew p = some (fs', h)) :
    fs.entry (fs.loc p) = none ∧ fs' = fs.createAt (fs.loc p) ∧ h = .file fs.nextIno := by
  unfold FS.createNew at he
  split at he
  · cases he
  · rename_i hn
    rw [Option.some.injEq, Prod.mk.injEq] at he
    exact ⟨hn, he.1.symm, he.2.symm⟩

theorem grow_create (fs : FS) (n : Name) (hn : fs.entry n = none) (b : Bytes) : Grow fs ((fs.createAt n).setContent fs.nextIno b) where
  loc := rfl
  entry m node h := by
    have : m ≠ n := by rintro rfl; rw [hn] at h; cases h
    simp only [FS.setContent, FS.createAt, if_neg this]
    exact h
  next := Nat.le_succ _
  content ino h := by
    have : ino ≠ fs.nextIno := Nat.ne_of_lt h
    simp only [FS.setContent, FS.createAt, if_neg this]
  wf h := by
    intro m ino he
    simp only [FS.setContent, FS.createAt] at he ⊢
    split at he
    · cases he
      exact Nat.lt_succ_self _
    · exact Nat.lt_succ_of_lt (h m ino he)

theorem put_grow (w : World) (p : Path) (b : Bytes) (hn : w.fs.entry (w.fs.loc p) = none) :
    Grow w.fs (World.put { w with fs := w.fs.createAt (w.fs.loc p), fates := w.fates.tail.tail } (.handle (.file w.fs.nextIno)) b).fs :=
  grow_create _ _ hn _

/-- Writing a file without `force`. -/
theorem writeFile_new (w : World) (out : Output) (b : Bytes) :
    Grow w.fs (writeFile w false out b).2.fs ∧
      ((writeFile w false out b).1 = .ok () → ∀ p, out = .file p → (writeFile w false out b).2.fs.holds p b) := by
  rw [writeFile]
  split
  · exact ⟨Grow.refl _, by rintro ⟨⟩⟩
  · split
    · exact ⟨Grow.refl _, by rintro ⟨⟩⟩
    · rename_i fs sink hopen
      cases out with
      | stdout =>
        simp only [openOutput, Option.some.injEq, Prod.mk.injEq] at hopen
        obtain ⟨rfl, rfl⟩ := hopen
        refine ⟨?_, by rintro _ p ⟨⟩⟩
        rw [writeAll]
        split <;> exact Grow.refl _
      | file p =>
        simp only [openOutput, Bool.false_eq_true, if_false] at hopen
        split at hopen
        · rename_i fs1 h1 hc
          rw [Option.some.injEq, Prod.mk.injEq] at hopen
          obtain ⟨rfl, rfl⟩ := hopen
          obtain ⟨hn, rfl, rfl⟩ := createNew_spec hc
          rw [writeAll]
          split
          · refine ⟨grow_create _ _ hn _, ?_⟩
            rintro _ p' ⟨⟩
            refine ⟨w.fs.nextIno, ?_, ?_⟩
            · simp [World.put, FS.setContent, FS.createAt]
            · simp [World.put, FS.setContent]
          · exact ⟨grow_create _ _ hn _, by rintro ⟨⟩⟩
        · cases hopen

/-- What stays true of the files while key pairs are written without `force`. -/
theorem genPairs_grow (sha512 : Bytes → Bytes) (total idx : Nat) (pairs : List (KeyPairOutputStreams × Bytes × Bytes)) (w : World) :
    Grow w.fs (genPairs sha512 false total idx pairs w).2.fs :=
  genPairs_rel (fun w w' => Grow w.fs w'.fs) (fun _ => Grow.refl _) (fun _ _ _ h1 h2 => h1.trans h2) (fun _ _ _ => Grow.refl _)
    sha512 false total pairs idx w (fun w out b _ => (writeFile_new w out b).1)

theorem say_fs (w : World) (m : List Char) : (say w m).2.fs = w.fs := rfl

theorem reportPair_false {r : Res Unit × World} {w' : World} (h : reportPair r = (.ok false, w')) :
    r.1 = .ok () ∧ w'.fs = r.2.fs ∧ w'.stdout = r.2.stdout := by
  obtain ⟨r1, w⟩ := r
  cases r1 with
  | ok u =>
    obtain ⟨_, h2⟩ := andThen_fst_ok h
    rw [Prod.mk.injEq] at h2
    exact ⟨rfl, by rw [← h2.2]; exact ⟨rfl, rfl⟩⟩
  | err e =>
    obtain ⟨_, h2⟩ := andThen_fst_ok h
    obtain ⟨_, h3⟩ := andThen_fst_ok h2
    cases h3
  | panic => cases h

/-- A pair without errors: its files were written, one after the other. -/
theorem genPair_false {sha512 : Bytes → Bytes} {force : Bool} {total idx : Nat} {s : KeyPairOutputStreams} {pk sk : Bytes} {w w' : World}
    (h : genPair sha512 force total idx s pk sk w = (.ok false, w')) :
    ∃ priv, KeyText.privateKeyText sha512 pk sk = .ok priv ∧ ∃ w1 w2 : World, w1.fs = w.fs ∧
      (∀ out, s.publicKeyStream = some out → ∃ v : World, v.fs = w1.fs ∧
        writeFile v force out (Text.encode (KeyText.publicKeyText sha512 pk)) = (.ok (), w2)) ∧
      (s.publicKeyStream = none → w2.fs = w1.fs) ∧
      ∃ v : World, v.fs = w2.fs ∧ (writeFile v force s.privateKeyStream (Text.encode priv)).1 = .ok () ∧
        w'.fs = (writeFile v force s.privateKeyStream (Text.encode priv)).2.fs := by
  rw [genPair] at h
  split at h
  · cases h
  · cases h
  · rename_i priv hpriv
    refine ⟨priv, hpriv, ?_⟩
    obtain ⟨_, h⟩ := andThen_fst_ok h
    obtain ⟨_, h⟩ := andThen_fst_ok h
    obtain ⟨h1, h2, _⟩ := reportPair_false h
    rw [writePair] at h1 h2
    generalize hw0 : (say (say w _).2 _).2 = w0 at *
    have hw0fs : w0.fs = w.fs := by rw [← hw0]; rfl
    cases hr : writePair w0 force s (KeyText.publicKeyText sha512 pk) priv with
    | mk r1 r2 =>
    have hr1 : r1 = .ok () := by
      rw [writePair] at hr
      rw [hr] at h1
      exact h1
    subst hr1
    have hr2 : w'.fs = r2.fs := by
      rw [writePair] at hr
      rw [hr] at h2
      exact h2
    rw [writePair] at hr
    obtain ⟨ha, hb⟩ := andThen_fst_ok hr
    obtain ⟨hc, hd⟩ := andThen_fst_ok hb
    cases hp : s.publicKeyStream with
    | none =>
      simp only [hp] at ha hb hc hd
      exact ⟨w0, w0, hw0fs, by rintro out ⟨⟩, fun _ => rfl,
        (say w0 ("    Private key file: ".toList ++ outputPath s.privateKeyStream)).2, rfl, by rw [hd], by rw [hd, hr2]⟩
    | some out =>
      simp only [hp] at ha hb hc hd
      cases hq : andThen (say w0 ("    Public key file: ".toList ++ outputPath out)) fun w =>
          writeFile w force out (Text.encode (KeyText.publicKeyText sha512 pk)) with
      | mk q1 q2 =>
      rw [hq] at ha hb hc hd
      simp only at ha
      subst ha
      obtain ⟨he, hf⟩ := andThen_fst_ok hq
      refine ⟨w0, q2, hw0fs, ?_, by rintro ⟨⟩,
        (say q2 ("    Private key file: ".toList ++ outputPath s.privateKeyStream)).2, ?_, by rw [hd], by rw [hd, hr2]⟩
      · rintro out' ⟨⟩
        exact ⟨(say w0 ("    Public key file: ".toList ++ outputPath out)).2, rfl, hf⟩
      · rfl

theorem genPairs_cons_ok {sha512 : Bytes → Bytes} {force : Bool} {total idx : Nat} {s : KeyPairOutputStreams} {pk sk : Bytes}
    {rest : List (KeyPairOutputStreams × Bytes × Bytes)} {w w' : World} {failed : List Nat}
    (h : genPairs sha512 force total idx ((s, pk, sk) :: rest) w = (.ok failed, w')) :
    ∃ b w1 more, genPair sha512 force total idx s pk sk w = (.ok b, w1) ∧
      genPairs sha512 force total (idx + 1) rest w1 = (.ok more, w') ∧ failed = if b then idx :: more else more := by
  rw [genPairs] at h
  split at h
  · cases h
  · cases h
  · rename_i b w1 heq
    split at h
    · rename_i more w2 heq2
      rw [Prod.mk.injEq, Res.ok.injEq] at h
      obtain ⟨h1, rfl⟩ := h
      exact ⟨b, w1, more, heq, heq2, h1.symm⟩
    · rename_i hno
      cases hg : genPairs sha512 force total (idx + 1) rest w1 with
      | mk g1 g2 =>
        rw [hg] at h
        cases h
        exact absurd hg (hno _ _)

theorem failed_ge {sha512 : Bytes → Bytes} {force : Bool} {total : Nat} (pairs : List (KeyPairOutputStreams × Bytes × Bytes)) :
    ∀ {idx : Nat} {w w' : World} {failed : List Nat}, genPairs sha512 force total idx pairs w = (.ok failed, w') →
      ∀ i ∈ failed, idx ≤ i := by
  induction pairs with
  | nil =>
    intro idx w w' failed h i hi
    cases h
    cases hi
  | cons q rest ih =>
    obtain ⟨s, pk, sk⟩ := q
    intro idx w w' failed h i hi
    obtain ⟨b, w1, more, h1, h2, rfl⟩ := genPairs_cons_ok h
    have := ih h2
    split at hi
    · rcases List.mem_cons.1 hi with rfl | hi
      · exact Nat.le_refl _
      · exact Nat.le_of_succ_le (this i hi)
    · exact Nat.le_of_succ_le (this i hi)

/-- Without `force`: the pairs without errors are there. -/
theorem genPairs_new {sha512 : Bytes → Bytes} {total : Nat} (pairs : List (KeyPairOutputStreams × Bytes × Bytes)) :
    ∀ {idx : Nat} {w w' : World} {failed : List Nat}, w.fs.WF → genPairs sha512 false total idx pairs w = (.ok failed, w') →
      ∀ i s pk sk, pairs[i]? = some (s, pk, sk) → idx + i ∉ failed → PairWritten sha512 w'.fs s pk sk := by
  induction pairs with
  | nil =>
    intro idx w w' failed _ h i s pk sk hi
    cases hi
  | cons q rest ih =>
    obtain ⟨s0, pk0, sk0⟩ := q
    intro idx w w' failed hwf h i s pk sk hi hf
    obtain ⟨b, w1, more, h1, h2, rfl⟩ := genPairs_cons_ok h
    have hg1 : Grow w.fs w1.fs := by
      have := genPair_rel (fun w w' => Grow w.fs w'.fs) (fun _ => Grow.refl _) (fun _ _ _ h1 h2 => h1.trans h2) (fun _ _ _ => Grow.refl _)
        sha512 false total idx s0 pk0 sk0 w (fun w out b _ => (writeFile_new w out b).1)
      rw [h1] at this
      exact this
    have hg2 : Grow w1.fs w'.fs := by
      have := genPairs_grow sha512 total (idx + 1) rest w1
      rw [h2] at this
      exact this
    have hwf1 := hg1.wf hwf
    cases i with
    | zero =>
      rw [List.getElem?_cons_zero, Option.some.injEq, Prod.mk.injEq, Prod.mk.injEq] at hi
      obtain ⟨rfl, rfl, rfl⟩ := hi
      cases b with
      | true => simp at hf
      | false =>
        obtain ⟨priv, hpriv, v1, v2, hv1, hpub, hnone, v3, hv3, hok, hfs⟩ := genPair_false h1
        have hw3 := writeFile_new v3 s0.privateKeyStream (Text.encode priv)
        refine ⟨priv, hpriv, ?_, ?_⟩
        · intro p hp
          obtain ⟨v, hv, hwr⟩ := hpub _ hp
          have hw2 := writeFile_new v (.file p) (Text.encode (KeyText.publicKeyText sha512 pk0))
          rw [hwr] at hw2
          have hold := hw2.2 rfl p rfl
          have hwf2 : v2.fs.WF := hw2.1.wf (by rw [hv, hv1]; exact hwf)
          have h3 : w1.fs.holds p (Text.encode (KeyText.publicKeyText sha512 pk0)) := by
            rw [hfs]
            exact hw3.1.holds (by rw [hv3]; exact hwf2) (by rw [hv3]; exact hold)
          exact hg2.holds hwf1 h3
        · intro p hp
          refine hg2.holds hwf1 ?_
          rw [hfs]
          exact hw3.2 hok p hp
    | succ i =>
      rw [List.getElem?_cons_succ] at hi
      apply ih hwf1 h2 i s pk sk hi
      intro hmem
      apply hf
      rw [show idx + (i + 1) = idx + 1 + i by omega]
      split
      · exact List.mem_cons_of_mem _ hmem
      · exact hmem

/-- What is kept while files of `qs` are written, with `force`, when the files of `ps` are separate. -/
structure Keeps (ps qs : List Path) (fs fs' : FS) : Prop where
  loc : fs'.loc = fs.loc
  wf : fs'.WF
  separate : Separate fs' ps
  others : ∀ p ∈ ps, p ∉ qs → ∀ c, fs.holds p c → fs'.holds p c

theorem follow_plain (fs : FS) (n : Name) (h : fs.entry n = none ∨ ∃ ino, fs.entry n = some (.file ino)) : fs.follow 40 n = some n := by
  rcases h with h | ⟨ino, h⟩ <;> simp [FS.follow, h]

theorem keeps_create (fs : FS) (ps : List Path) (q : Path) (hwf : fs.WF) (hs : Separate fs ps) (hq : q ∈ ps)
    (hn : fs.entry (fs.loc q) = none) (b : Bytes) :
    Keeps ps [q] fs ((fs.createAt (fs.loc q)).setContent fs.nextIno b) := by
  have hg := grow_create fs (fs.loc q) hn b
  have hother : ∀ p ∈ ps, p ≠ q → ((fs.createAt (fs.loc q)).setContent fs.nextIno b).entry (fs.loc p) = fs.entry (fs.loc p) := by
    intro p hp hne
    simp only [FS.setContent, FS.createAt, if_neg (hs.places p hp q hq hne)]
  have hself : ((fs.createAt (fs.loc q)).setContent fs.nextIno b).entry (fs.loc q) = some (.file fs.nextIno) := by
    simp [FS.setContent, FS.createAt]
  refine ⟨rfl, hg.wf hwf, ⟨?_, fun p hp p' hp' => hs.places p hp p' hp', ?_⟩, fun p hp hne c hc => hg.holds hwf hc⟩
  · intro p hp
    show _ ∨ ∃ ino, ((fs.createAt (fs.loc q)).setContent fs.nextIno b).entry (fs.loc p) = _
    by_cases hpq : p = q
    · subst hpq
      exact .inr ⟨_, hself⟩
    · rw [hother p hp hpq]
      rcases hs.plain p hp with h | ⟨ino, h⟩
      · left
        show ((fs.createAt (fs.loc q)).setContent fs.nextIno b).entry (fs.loc p) = _
        rw [hother p hp hpq, h]
      · exact .inr ⟨ino, h⟩
  · intro p hp p' hp' ino hne h1 h2
    change ((fs.createAt (fs.loc q)).setContent fs.nextIno b).entry (fs.loc p) = _ at h1
    change ((fs.createAt (fs.loc q)).setContent fs.nextIno b).entry (fs.loc p') = _ at h2
    by_cases hpq : p = q
    · subst hpq
      rw [hself] at h1
      rw [hother p' hp' (Ne.symm hne)] at h2
      cases h1
      exact absurd (hwf _ _ h2) (Nat.lt_irrefl _)
    · rw [hother p hp hpq] at h1
      by_cases hpq' : p' = q
      · subst hpq'
        rw [hself] at h2
        cases h2
        exact absurd (hwf _ _ h1) (Nat.lt_irrefl _)
      · rw [hother p' hp' hpq'] at h2
        exact hs.inodes p hp p' hp' ino hne h1 h2

theorem keeps_set (fs : FS) (ps : List Path) (q : Path) (hwf : fs.WF) (hs : Separate fs ps) (hq : q ∈ ps) (ino : Nat)
    (hn : fs.entry (fs.loc q) = some (.file ino)) (b : Bytes) : Keeps ps [q] fs (fs.setContent ino b) := by
  refine ⟨rfl, hwf, ⟨hs.plain, hs.places, hs.inodes⟩, ?_⟩
  rintro p hp hne c ⟨i, h1, h2⟩
  refine ⟨i, h1, ?_⟩
  have : i ≠ ino := by
    rintro rfl
    exact hs.inodes p hp q hq i (by simpa using hne) h1 hn
  simp only [FS.setContent, if_neg this]
  exact h2

theorem Keeps.refl {ps : List Path} {fs : FS} (qs : List Path) (hwf : fs.WF) (hs : Separate fs ps) : Keeps ps qs fs fs :=
  ⟨rfl, hwf, hs, fun _ _ _ _ h => h⟩

theorem Keeps.mono {ps qs qs' : List Path} {fs fs' : FS} (h : Keeps ps qs fs fs') (hsub : ∀ q ∈ qs, q ∈ qs') : Keeps ps qs' fs fs' :=
  ⟨h.loc, h.wf, h.separate, fun p hp hne => h.others p hp (fun hm => hne (hsub p hm))⟩

theorem Keeps.trans {ps qs : List Path} {a b c : FS} (h1 : Keeps ps qs a b) (h2 : Keeps ps qs b c) : Keeps ps qs a c :=
  ⟨by rw [h2.loc, h1.loc], h2.wf, h2.separate, fun p hp hne _ hx => h2.others p hp hne _ (h1.others p hp hne _ hx)⟩

/-- The file of an output. -/
def outPaths : Output → List Path
  | .file q => [q]
  | .stdout => []

/-- Writing one of separate files with `force`. -/
theorem writeFile_force (w : World) (ps : List Path) (out : Output) (b : Bytes) (hwf : w.fs.WF) (hs : Separate w.fs ps)
    (hout : ∀ q, out = .file q → q ∈ ps) :
    Keeps ps (outPaths out) w.fs (writeFile w true out b).2.fs ∧
      ((writeFile w true out b).1 = .ok () → ∀ p, out = .file p → (writeFile w true out b).2.fs.holds p b) := by
  rw [writeFile]
  split
  · exact ⟨.refl _ hwf hs, by rintro ⟨⟩⟩
  · split
    · exact ⟨.refl _ hwf hs, by rintro ⟨⟩⟩
    · rename_i fs sink hopen
      cases out with
      | stdout =>
        simp only [openOutput, Option.some.injEq, Prod.mk.injEq] at hopen
        obtain ⟨rfl, rfl⟩ := hopen
        refine ⟨?_, by rintro _ p ⟨⟩⟩
        rw [writeAll]
        split <;> exact .refl _ hwf hs
      | file q =>
        have hq := hout q rfl
        simp only [openOutput, if_true] at hopen
        have hpl := hs.plain q hq
        rw [FS.createTrunc, follow_plain _ _ hpl] at hopen
        rcases hpl with hn | ⟨ino, hn⟩
        · simp only [hn, Option.some.injEq, Prod.mk.injEq] at hopen
          obtain ⟨rfl, rfl⟩ := hopen
          rw [writeAll]
          split
          · refine ⟨keeps_create _ _ _ hwf hs hq hn _, ?_⟩
            rintro _ p' ⟨⟩
            refine ⟨w.fs.nextIno, ?_, ?_⟩
            · simp [World.put, FS.setContent, FS.createAt]
            · simp [World.put, FS.setContent]
          · exact ⟨keeps_create _ _ _ hwf hs hq hn _, by rintro ⟨⟩⟩
        · simp only [hn, Option.some.injEq, Prod.mk.injEq] at hopen
          obtain ⟨rfl, rfl⟩ := hopen
          have hset : ∀ c, (w.fs.setContent ino []).setContent ino c = w.fs.setContent ino c := by
            intro c
            simp only [FS.setContent, FS.mk.injEq, true_and, and_true]
            funext i
            split <;> rfl
          rw [writeAll]
          split
          · simp only [World.put, hset]
            refine ⟨keeps_set _ _ _ hwf hs hq ino hn _, ?_⟩
            rintro _ p' ⟨⟩
            refine ⟨ino, hn, ?_⟩
            simp [FS.setContent]
          · simp only [World.put, hset]
            exact ⟨keeps_set _ _ _ hwf hs hq ino hn _, by rintro ⟨⟩⟩

/-- `Keeps`, if all is well before. -/
def KeepsW (ps qs : List Path) (w w' : World) : Prop := w.fs.WF → Separate w.fs ps → Keeps ps qs w.fs w'.fs

theorem KeepsW.trans {ps qs : List Path} {a b c : World} (h1 : KeepsW ps qs a b) (h2 : KeepsW ps qs b c) : KeepsW ps qs a c :=
  fun hwf hs => (h1 hwf hs).trans (h2 (h1 hwf hs).wf (h1 hwf hs).separate)

theorem writeFile_keepsW (ps qs : List Path) (w : World) (out : Output) (b : Bytes) (h : ∀ q, out = .file q → q ∈ ps ∧ q ∈ qs) :
    KeepsW ps qs w (writeFile w true out b).2 := by
  intro hwf hs
  refine ((writeFile_force w ps out b hwf hs (fun q hq => (h q hq).1)).1).mono ?_
  intro q hq
  cases out with
  | stdout => cases hq
  | file p =>
    rw [outPaths, List.mem_singleton] at hq
    subst hq
    exact (h q rfl).2

theorem mem_pairPaths {s : KeyPairOutputStreams} {out : Output} {q : Path}
    (h : some out = s.publicKeyStream ∨ out = s.privateKeyStream) (hq : out = .file q) : q ∈ pairPaths s := by
  subst hq
  simp only [pairPaths, List.mem_filterMap, List.mem_append, Option.mem_toList, List.mem_singleton]
  exact ⟨.file q, by rcases h with h | h <;> simp [h], rfl⟩

theorem mem_allPaths {pairs : List (KeyPairOutputStreams × Bytes × Bytes)} {x : KeyPairOutputStreams × Bytes × Bytes} {q : Path}
    (hx : x ∈ pairs) (hq : q ∈ pairPaths x.1) : q ∈ allPaths pairs := List.mem_flatMap.2 ⟨x, hx, hq⟩

theorem genPairs_keeps (sha512 : Bytes → Bytes) (ps : List Path) (total idx : Nat)
    (pairs : List (KeyPairOutputStreams × Bytes × Bytes)) (w : World) (hsub : ∀ q ∈ allPaths pairs, q ∈ ps) :
    KeepsW ps (allPaths pairs) w (genPairs sha512 true total idx pairs w).2 :=
  genPairs_rel (KeepsW ps (allPaths pairs)) (fun _ hwf hs => .refl _ hwf hs) (fun _ _ _ h1 h2 => h1.trans h2)
    (fun _ _ _ hwf hs => .refl _ hwf hs) sha512 true total pairs idx w (fun w out b ⟨_, hx, h⟩ =>
      writeFile_keepsW ps _ w out b (fun q hq =>
        ⟨hsub q (mem_allPaths hx (mem_pairPaths h hq)), mem_allPaths hx (mem_pairPaths h hq)⟩))

theorem genPair_keeps (sha512 : Bytes → Bytes) (ps : List Path) (total idx : Nat) (s : KeyPairOutputStreams) (pk sk : Bytes) (w : World)
    (hsub : ∀ q ∈ pairPaths s, q ∈ ps) : KeepsW ps (pairPaths s) w (genPair sha512 true total idx s pk sk w).2 :=
  genPair_rel (KeepsW ps (pairPaths s)) (fun _ hwf hs => .refl _ hwf hs) (fun _ _ _ h1 h2 => h1.trans h2)
    (fun _ _ _ hwf hs => .refl _ hwf hs) sha512 true total idx s pk sk w (fun w out b h =>
      writeFile_keepsW ps _ w out b (fun q hq => ⟨hsub q (mem_pairPaths h hq), mem_pairPaths h hq⟩))

/-- With `force`, into separate files: the pairs without errors are there. -/
theorem genPairs_forced {sha512 : Bytes → Bytes} {total : Nat} (ps : List Path) (pairs : List (KeyPairOutputStreams × Bytes × Bytes)) :
    ∀ {idx : Nat} {w w' : World} {failed : List Nat}, w.fs.WF → Separate w.fs ps → (allPaths pairs).Nodup →
      (∀ q ∈ allPaths pairs, q ∈ ps) → genPairs sha512 true total idx pairs w = (.ok failed, w') →
      ∀ i s pk sk, pairs[i]? = some (s, pk, sk) → idx + i ∉ failed → PairWritten sha512 w'.fs s pk sk := by
  induction pairs with
  | nil =>
    intro idx w w' failed _ _ _ _ h i s pk sk hi
    cases hi
  | cons q rest ih =>
    obtain ⟨s0, pk0, sk0⟩ := q
    intro idx w w' failed hwf hs hnd hsub h i s pk sk hi hf
    obtain ⟨b, w1, more, h1, h2, rfl⟩ := genPairs_cons_ok h
    have hall : allPaths ((s0, pk0, sk0) :: rest) = pairPaths s0 ++ allPaths rest := rfl
    rw [hall] at hnd hsub
    rw [List.nodup_append] at hnd
    have hg1 : Keeps ps (pairPaths s0) w.fs w1.fs := by
      have := genPair_keeps sha512 ps total idx s0 pk0 sk0 w (fun q hq => hsub q (List.mem_append_left _ hq)) hwf hs
      rw [h1] at this
      exact this
    have hg2 : Keeps ps (allPaths rest) w1.fs w'.fs := by
      have := genPairs_keeps sha512 ps total (idx + 1) rest w1 (fun q hq => hsub q (List.mem_append_right _ hq)) hg1.wf hg1.separate
      rw [h2] at this
      exact this
    cases i with
    | zero =>
      rw [List.getElem?_cons_zero, Option.some.injEq, Prod.mk.injEq, Prod.mk.injEq] at hi
      obtain ⟨rfl, rfl, rfl⟩ := hi
      cases b with
      | true => simp at hf
      | false =>
        obtain ⟨priv, hpriv, v1, v2, hv1, hpub, hnone, v3, hv3, hok, hfs⟩ := genPair_false h1
        have hin : ∀ q, q ∈ pairPaths s0 → q ∈ ps := fun q hq => hsub q (List.mem_append_left _ hq)
        have hfin : ∀ q c, q ∈ pairPaths s0 → w1.fs.holds q c → w'.fs.holds q c := fun q c hq hc =>
          hg2.others q (hin q hq) (fun hm => hnd.2.2 q hq q hm rfl) c hc
        have hv2 : v2.fs.WF ∧ Separate v2.fs ps := by
          cases hp : s0.publicKeyStream with
          | none => rw [hnone hp, hv1]; exact ⟨hwf, hs⟩
          | some out =>
            obtain ⟨v, hv, hwr⟩ := hpub _ hp
            have := (writeFile_force v ps out (Text.encode (KeyText.publicKeyText sha512 pk0)) (by rw [hv, hv1]; exact hwf)
              (by rw [hv, hv1]; exact hs) (fun q hq => hin q (mem_pairPaths (.inl hp.symm) hq))).1
            rw [hwr] at this
            exact ⟨this.wf, this.separate⟩
        have hw3 := writeFile_force v3 ps s0.privateKeyStream (Text.encode priv) (by rw [hv3]; exact hv2.1)
          (by rw [hv3]; exact hv2.2) (fun q hq => hin q (mem_pairPaths (.inr rfl) hq))
        refine ⟨priv, hpriv, ?_, ?_⟩
        · intro p hp
          have hmem : p ∈ pairPaths s0 := mem_pairPaths (.inl hp.symm) rfl
          obtain ⟨v, hv, hwr⟩ := hpub _ hp
          have hw2 := writeFile_force v ps (.file p) (Text.encode (KeyText.publicKeyText sha512 pk0)) (by rw [hv, hv1]; exact hwf)
            (by rw [hv, hv1]; exact hs) (fun q hq => hin q (mem_pairPaths (.inl hp.symm) hq))
          rw [hwr] at hw2
          have hold := hw2.2 rfl p rfl
          apply hfin p _ hmem
          rw [hfs]
          refine hw3.1.others p (hin p hmem) ?_ _ (by rw [hv3]; exact hold)
          intro hm
          cases hpr : s0.privateKeyStream with
          | stdout => rw [hpr] at hm; cases hm
          | file q =>
            rw [hpr, outPaths, List.mem_singleton] at hm
            subst hm
            have : pairPaths s0 = [p, p] := by
              simp [pairPaths, hp, hpr]
            rw [this] at hnd
            exact absurd hnd.1 (by simp)
        · intro p hp
          apply hfin p _ (mem_pairPaths (.inr hp.symm) rfl)
          rw [hfs]
          exact hw3.2 hok p hp
    | succ i =>
      rw [List.getElem?_cons_succ] at hi
      apply ih hg1.wf hg1.separate hnd.2.1 (fun q hq => hsub q (List.mem_append_right _ hq)) h2 i s pk sk hi
      intro hmem
      apply hf
      rw [show idx + (i + 1) = idx + 1 + i by omega]
      split
      · exact List.mem_cons_of_mem _ hmem
      · exact hmem

/-- Two worlds that differ at most in the contents of files and in what went to standard output. -/
structure Sim (w v : World) : Prop where
  term : v.term = w.term
  fates : v.fates = w.fates
  loc : v.fs.loc = w.fs.loc
  entry : v.fs.entry = w.fs.entry
  next : v.fs.nextIno = w.fs.nextIno

theorem sim_follow {fs fs' : FS} (h : fs'.entry = fs.entry) (k : Nat) (n : Name) : fs'.follow k n = fs.follow k n := by
  induction k generalizing n with
  | zero => rfl
  | succ k ih => rw [FS.follow, FS.follow, h]; split <;> simp_all

theorem sim_open {fs fs' : FS} (h1 : fs'.loc = fs.loc) (h2 : fs'.entry = fs.entry) (h3 : fs'.nextIno = fs.nextIno) (force : Bool)
    (out : Output) :
    (openOutput fs force out = none ∧ openOutput fs' force out = none) ∨
      ∃ g g' sink, openOutput fs force out = some (g, sink) ∧ openOutput fs' force out = some (g', sink) ∧ g'.loc = g.loc ∧
        g'.entry = g.entry ∧ g'.nextIno = g.nextIno := by
  cases out with
  | stdout => exact .inr ⟨fs, fs', .stdout, rfl, rfl, h1, h2, h3⟩
  | file p =>
    cases force with
    | false =>
      simp only [openOutput, Bool.false_eq_true, if_false, FS.createNew, h1, h2]
      cases fs.entry (fs.loc p) with
      | some node => exact .inl ⟨rfl, rfl⟩
      | none =>
        refine .inr ⟨_, fs'.createAt (fs.loc p), .handle (.file fs.nextIno), rfl, ?_, h1, ?_, ?_⟩
        · simp [h3]
        · simp [FS.createAt, h2, h3]
        · simp [FS.createAt, h3]
    | true =>
      simp only [openOutput, if_true, FS.createTrunc, h1, sim_follow h2]
      cases fs.follow 40 (fs.loc p) with
      | none => exact .inl ⟨rfl, rfl⟩
      | some n =>
        simp only [h2]
        cases he : fs.entry n with
        | none =>
          refine .inr ⟨_, fs'.createAt n, .handle (.file fs.nextIno), rfl, ?_, ?_, ?_, ?_⟩
          · simp [h3]
          · exact h1
          · simp [FS.createAt, h2, h3]
          · simp [FS.createAt, h3]
        | some node =>
          cases node with
          | file ino => exact .inr ⟨_, _, _, rfl, rfl, h1, h2, h3⟩
          | symlink t => exact .inl ⟨rfl, rfl⟩
          | dir => exact .inl ⟨rfl, rfl⟩
          | special => exact .inr ⟨_, _, _, rfl, rfl, h1, h2, h3⟩

theorem sim_put {w v : World} (h : Sim w v) (sink : Sink) (b b' : Bytes) : Sim (w.put sink b) (v.put sink b') := by
  obtain ⟨h1, h2, h3, h4, h5⟩ := h
  cases sink with
  | stdout => exact ⟨h1, h2, h3, h4, h5⟩
  | handle hd => cases hd <;> exact ⟨h1, h2, h3, h4, h5⟩

/-- Results that agree, in worlds that differ at most in contents. -/
structure SimR {α : Type} (r r' : Res α × World) : Prop where
  res : r'.1 = r.1
  world : Sim r.2 r'.2

theorem sim_writeFile {w v : World} (h : Sim w v) (force : Bool) (out : Output) (b b' : Bytes) :
    SimR (writeFile w force out b) (writeFile v force out b') := by
  have hf : v.nextFate = w.nextFate := by rw [World.nextFate, World.nextFate, h.fates]
  rw [writeFile, writeFile, hf]
  cases w.nextFate with
  | some n => exact ⟨rfl, h.term, by simp [h.fates], h.loc, h.entry, h.next⟩
  | none =>
    rcases sim_open h.loc h.entry h.next force out with ⟨e1, e2⟩ | ⟨g, g', sink, e1, e2, h1, h2, h3⟩
    · simp only [e1, e2]
      exact ⟨rfl, h.term, by simp [h.fates], h.loc, h.entry, h.next⟩
    · simp only [e1, e2]
      have hs : ∀ q q', Sim { w with fs := g, fates := w.fates.tail.tail, past := q }
          { v with fs := g', fates := v.fates.tail.tail, past := q' } :=
        fun _ _ => ⟨h.term, by simp [h.fates], h1, h2, h3⟩
      have hf2 : World.nextFate { v with fs := g', fates := v.fates.tail } = World.nextFate { w with fs := g, fates := w.fates.tail } := by
        rw [World.nextFate, World.nextFate, h.fates]
      rw [writeAll, writeAll, hf2]
      cases World.nextFate { w with fs := g, fates := w.fates.tail } with
      | none => exact ⟨rfl, sim_put (hs _ _) _ _ _⟩
      | some n => exact ⟨rfl, sim_put (hs _ _) _ _ _⟩

theorem sim_andThen {α : Type} {r r' : Res Unit × World} {f f' : World → Res α × World} (h : SimR r r')
    (hf : ∀ w v, Sim w v → SimR (f w) (f' v)) : SimR (andThen r f) (andThen r' f') := by
  obtain ⟨r1, w⟩ := r
  obtain ⟨r1', v⟩ := r'
  obtain ⟨h1, h2⟩ := h
  simp only at h1
  subst h1
  cases r1' with
  | ok u => exact hf w v h2
  | err e => exact ⟨rfl, h2⟩
  | panic => exact ⟨rfl, h2⟩

theorem sim_say {w v : World} (h : Sim w v) (m : List Char) : SimR (say w m) (say v m) := by
  rw [say, say, h.term]
  exact ⟨rfl, rfl, h.fates, h.loc, h.entry, h.next⟩

theorem sim_writePair {w v : World} (h : Sim w v) (force : Bool) (s : KeyPairOutputStreams) (pub priv priv' : List Char) :
    SimR (writePair w force s pub priv) (writePair v force s pub priv') := by
  rw [writePair, writePair]
  apply sim_andThen
  · cases s.publicKeyStream with
    | none => exact ⟨rfl, h⟩
    | some out => exact sim_andThen (sim_say h _) fun w v h => sim_writeFile h _ _ _ _
  · intro w v h
    exact sim_andThen (sim_say h _) fun w v h => sim_writeFile h _ _ _ _

theorem sim_report {r r' : Res Unit × World} (h : SimR r r') : SimR (reportPair r) (reportPair r') := by
  obtain ⟨r1, w⟩ := r
  obtain ⟨r1', v⟩ := r'
  obtain ⟨h1, h2⟩ := h
  simp only at h1 h2
  subst h1
  cases r1' with
  | ok u => exact sim_andThen (sim_say h2 _) fun w v h => ⟨rfl, h⟩
  | err e =>
    refine sim_andThen ?_ fun w v h => sim_andThen (sim_say h _) fun w v h => ⟨rfl, h⟩
    rw [h2.term]
    exact ⟨rfl, rfl, h2.fates, h2.loc, h2.entry, h2.next⟩
  | panic => exact ⟨rfl, h2⟩

theorem sim_genPairs (sha512 : Bytes → Bytes) (force : Bool) (total : Nat) {a b : List (KeyPairOutputStreams × Bytes × Bytes)}
    (hab : SamePublic a b) : ∀ (idx : Nat) (w v : World), Sim w v →
      SimR (genPairs sha512 force total idx a w) (genPairs sha512 force total idx b v) := by
  induction hab with
  | nil => intro idx w v h; exact ⟨rfl, h⟩
  | cons hxy htl ih =>
    rename_i x y xs ys
    obtain ⟨s, pk, sk⟩ := x
    obtain ⟨s', pk', sk'⟩ := y
    obtain ⟨h1, h2, h3, h4⟩ := hxy
    simp only at h1 h2 h3 h4
    subst h1 h2
    intro idx w v h
    have hp : SimR (genPair sha512 force total idx s pk sk w) (genPair sha512 force total idx s pk sk' v) := by
      rw [genPair, genPair, KeyText.privateKeyText, KeyText.privateKeyText, if_pos h3.symm, if_pos h4.symm]
      refine sim_andThen (sim_say h _) fun w v h => sim_andThen (sim_say h _) fun w v h => ?_
      exact sim_report (sim_writePair h _ _ _ _ _)
    rw [genPairs, genPairs]
    revert hp
    generalize genPair sha512 force total idx s pk sk w = r
    generalize genPair sha512 force total idx s pk sk' v = r'
    rintro ⟨hr, hw⟩
    obtain ⟨r1, w1⟩ := r
    obtain ⟨r1', v1⟩ := r'
    simp only at hr hw
    subst hr
    cases r1' with
    | panic => exact ⟨rfl, hw⟩
    | err e => exact ⟨rfl, hw⟩
    | ok failed =>
      have hg := ih (idx + 1) w1 v1 hw
      revert hg
      simp only
      generalize genPairs sha512 force total (idx + 1) xs w1 = g
      generalize genPairs sha512 force total (idx + 1) ys v1 = g'
      rintro ⟨hr2, hw2⟩
      obtain ⟨g1, w2⟩ := g
      obtain ⟨g1', v2⟩ := g'
      simp only at hr2 hw2
      subst hr2
      cases g1' with
      | panic => exact ⟨rfl, hw2⟩
      | err e => exact ⟨rfl, hw2⟩
      | ok more => exact ⟨rfl, hw2⟩

theorem writeFile_stdout (w : World) (force : Bool) (out : Output) (b : Bytes) :
    (out ≠ .stdout → (writeFile w force out b).2.stdout = w.stdout) ∧
      (out = .stdout → (writeFile w force out b).1 = .ok () → (writeFile w force out b).2.stdout = w.stdout ++ b) := by
  rw [writeFile]
  split
  · exact ⟨fun _ => rfl, by rintro _ ⟨⟩⟩
  · split
    · exact ⟨fun _ => rfl, by rintro _ ⟨⟩⟩
    · rename_i fs sink hopen
      cases out with
      | stdout =>
        simp only [openOutput, Option.some.injEq, Prod.mk.injEq] at hopen
        obtain ⟨rfl, rfl⟩ := hopen
        refine ⟨fun h => absurd rfl h, fun _ => ?_⟩
        rw [writeAll]
        split
        · intro _; rfl
        · rintro ⟨⟩
      | file p =>
        refine ⟨fun _ => ?_, by rintro ⟨⟩⟩
        have hsink : ∃ hd, sink = .handle hd := by
          simp only [openOutput] at hopen
          split at hopen
          · cases hopen; exact ⟨_, rfl⟩
          · cases hopen
        obtain ⟨hd, rfl⟩ := hsink
        rw [writeAll]
        split <;> cases hd <;> rfl

/-- What a pair without errors adds to standard output. -/
theorem genPair_stdout {sha512 : Bytes → Bytes} {force : Bool} {total idx : Nat} {s : KeyPairOutputStreams} {pk sk : Bytes} {w w' : World}
    (h : genPair sha512 force total idx s pk sk w = (.ok false, w')) (hpub : s.publicKeyStream ≠ some .stdout)
    (hpriv : s.privateKeyStream = .stdout) :
    ∃ priv, KeyText.privateKeyText sha512 pk sk = .ok priv ∧ w'.stdout = w.stdout ++ Text.encode priv := by
  rw [genPair] at h
  split at h
  · cases h
  · cases h
  · rename_i priv hp
    refine ⟨priv, hp, ?_⟩
    obtain ⟨_, h⟩ := andThen_fst_ok h
    obtain ⟨_, h⟩ := andThen_fst_ok h
    obtain ⟨h1, _, h3⟩ := reportPair_false h
    rw [h3]
    generalize hw0 : (say (say w _).2 _).2 = w0 at *
    have hw0s : w0.stdout = w.stdout := by rw [← hw0]; rfl
    rw [← hw0s]
    clear h hw0 h3
    cases hr : writePair w0 force s (KeyText.publicKeyText sha512 pk) priv with
    | mk r1 r2 =>
    rw [hr] at h1
    simp only at h1
    subst h1
    rw [writePair] at hr
    obtain ⟨ha, hb⟩ := andThen_fst_ok hr
    obtain ⟨hc, hd⟩ := andThen_fst_ok hb
    rw [hpriv] at hd
    have h4 := (writeFile_stdout _ _ _ _).2 rfl (by rw [hd])
    rw [hd] at h4
    rw [h4]
    congr 1
    show World.stdout _ = _
    cases hps : s.publicKeyStream with
    | none => rfl
    | some out =>
      simp only
      have h5 : ∀ v : World, (writeFile v force out (Text.encode (KeyText.publicKeyText sha512 pk))).2.stdout = v.stdout :=
        fun v => (writeFile_stdout v force out _).1 (fun h => hpub (by rw [hps, h]))
      show World.stdout (andThen _ _).2 = _
      have h6 := andThen_rel (fun a b : World => b.stdout = a.stdout) (fun _ _ _ h1 h2 => by rw [h2, h1]) (w0 := w0)
        (r := say w0 ("    Public key file: ".toList ++ outputPath out))
        (f := fun w => writeFile w force out (Text.encode (KeyText.publicKeyText sha512 pk))) rfl h5
      exact h6

theorem genPairs_stdout (sha512 : Bytes → Bytes) (force : Bool) (total idx : Nat)
    (pairs : List (KeyPairOutputStreams × Bytes × Bytes)) (w : World)
    (h : ∀ q ∈ pairs, q.1.publicKeyStream ≠ some .stdout ∧ q.1.privateKeyStream ≠ .stdout) :
    (genPairs sha512 force total idx pairs w).2.stdout = w.stdout :=
  genPairs_rel (fun a b : World => b.stdout = a.stdout) (fun _ => rfl) (fun _ _ _ h1 h2 => by rw [h2, h1]) (fun _ _ _ => rfl)
    sha512 force total pairs idx w (fun w out b ⟨q, hq, ho⟩ => (writeFile_stdout w force out b).1 (by
      rintro rfl
      rcases ho with ho | ho
      · exact (h q hq).1 ho.symm
      · exact (h q hq).2 ho.symm))

/-- The terminal never fails. -/
def Quiet (w : World) : Prop := w.term.writes = []

theorem say_quiet {w : World} (h : Quiet w) (m : List Char) : ∃ v, say w m = (.ok (), v) ∧ Quiet v := by
  unfold Quiet at h
  simp only [say, UI.println, UI.print, UI.writeAll, h]
  split
  · exact ⟨_, rfl, rfl⟩
  · exact ⟨_, rfl, h⟩

theorem put_term (w : World) (sink : Sink) (b : Bytes) : (w.put sink b).term = w.term := by
  cases sink with
  | stdout => rfl
  | handle hd => cases hd <;> rfl

theorem writeFile_quiet {w : World} (h : Quiet w) (force : Bool) (out : Output) (b : Bytes) :
    (writeFile w force out b).1 ≠ .panic ∧ Quiet (writeFile w force out b).2 := by
  unfold Quiet at *
  rw [writeFile]
  split
  · exact ⟨by simp, h⟩
  · split
    · exact ⟨by simp, h⟩
    · rw [writeAll]
      split
      · exact ⟨by simp, by rw [put_term]; exact h⟩
      · exact ⟨by simp, by rw [put_term]; exact h⟩

theorem andThen_quiet {r : Res Unit × World} {f : World → Res Unit × World} (h : r.1 ≠ .panic ∧ Quiet r.2)
    (hf : ∀ w, Quiet w → (f w).1 ≠ .panic ∧ Quiet (f w).2) : (andThen r f).1 ≠ .panic ∧ Quiet (andThen r f).2 := by
  obtain ⟨r1, w⟩ := r
  cases r1 with
  | ok u => exact hf w h.2
  | err e => exact ⟨by simp [andThen], h.2⟩
  | panic => exact absurd rfl h.1

theorem say_quiet' {w : World} (h : Quiet w) (m : List Char) : (say w m).1 ≠ .panic ∧ Quiet (say w m).2 := by
  obtain ⟨v, hv, hq⟩ := say_quiet h m
  rw [hv]
  exact ⟨by simp, hq⟩

theorem writePair_quiet {w : World} (h : Quiet w) (force : Bool) (s : KeyPairOutputStreams) (pub priv : List Char) :
    (writePair w force s pub priv).1 ≠ .panic ∧ Quiet (writePair w force s pub priv).2 := by
  rw [writePair]
  apply andThen_quiet
  · split
    · exact ⟨by simp, h⟩
    · exact andThen_quiet (say_quiet' h _) fun w h => writeFile_quiet h _ _ _
  · intro w h
    exact andThen_quiet (say_quiet' h _) fun w h => writeFile_quiet h _ _ _

theorem genPair_quiet {w : World} (h : Quiet w) (sha512 : Bytes → Bytes) (force : Bool) (total idx : Nat) (s : KeyPairOutputStreams)
    (pk sk : Bytes) (hk : sk.drop 32 = pk) : ∃ b v, genPair sha512 force total idx s pk sk w = (.ok b, v) ∧ Quiet v := by
  rw [genPair, KeyText.privateKeyText, if_pos hk.symm]
  obtain ⟨v1, h1, q1⟩ := say_quiet h ("Keypair ".toList ++ Human.decimal (idx + 1) ++ '/' :: Human.decimal total ++ [':'])
  simp only [h1, andThen]
  obtain ⟨v2, h2, q2⟩ := say_quiet q1 ("    Public key: ".toList ++ Text.trim (KeyText.publicKeyText sha512 pk))
  simp only [h2]
  obtain ⟨h3, q3⟩ := writePair_quiet q2 force s (KeyText.publicKeyText sha512 pk)
    (Hex.toHexStringChecksummed sha512 (sk.take 32) ++ KeyText.publicKeyText sha512 pk)
  revert h3 q3
  generalize writePair v2 force s _ _ = r
  obtain ⟨r1, v3⟩ := r
  intro h3 q3
  cases r1 with
  | panic => exact absurd rfl h3
  | ok u =>
    obtain ⟨v4, h4, q4⟩ := say_quiet q3 []
    simp only [reportPair, h4, andThen]
    exact ⟨false, v4, rfl, q4⟩
  | err e =>
    have q4 : ∃ t, UI.printError v3.term "rypt".toList "Error".toList = (.ok (), t) ∧ t.writes = [] := by
      unfold Quiet at q3
      simp only at q3
      simp only [UI.printError, UI.writeAll, q3]
      split
      · exact ⟨_, rfl, rfl⟩
      · exact ⟨_, rfl, q3⟩
    obtain ⟨t, h4, q4⟩ := q4
    obtain ⟨v5, h5, q5⟩ := say_quiet (w := { v3 with term := t }) q4 []
    simp only [reportPair, h4, andThen, h5]
    exact ⟨true, v5, rfl, q5⟩

theorem genPairs_quiet (sha512 : Bytes → Bytes) (force : Bool) (total : Nat) (pairs : List (KeyPairOutputStreams × Bytes × Bytes))
    (hk : ∀ q ∈ pairs, q.2.2.drop 32 = q.2.1) : ∀ (idx : Nat) (w : World), Quiet w →
      ∃ failed v, genPairs sha512 force total idx pairs w = (.ok failed, v) := by
  induction pairs with
  | nil => intro idx w _; exact ⟨_, _, rfl⟩
  | cons q rest ih =>
    obtain ⟨s, pk, sk⟩ := q
    intro idx w h
    obtain ⟨b, v, h1, q1⟩ := genPair_quiet h sha512 force total idx s pk sk (hk _ (List.mem_cons_self ..))
    obtain ⟨more, v2, h2⟩ := ih (fun q hq => hk q (List.mem_cons_of_mem _ hq)) (idx + 1) v q1
    rw [genPairs, h1]
    simp only [h2]
    exact ⟨_, _, rfl⟩

theorem say_same {w : World} (h : Quiet w) (m : List Char) :
    ∃ v, say w m = (.ok (), v) ∧ Quiet v ∧ v.fs = w.fs ∧ v.fates = w.fates := by
  obtain ⟨v, h1, h2⟩ := say_quiet h m
  refine ⟨v, h1, h2, ?_, ?_⟩
  · rw [show v = (say w m).2 by rw [h1]]; rfl
  · rw [show v = (say w m).2 by rw [h1]]; rfl

theorem reportPair_err {w : World} (h : Quiet w) (e : Err) : ∃ v, reportPair (.err e, w) = (.ok true, v) ∧ v.fs = w.fs := by
  have q4 : ∃ t, UI.printError w.term "rypt".toList "Error".toList = (.ok (), t) ∧ t.writes = [] := by
    unfold Quiet at h
    simp only [UI.printError, UI.writeAll, h]
    split
    · exact ⟨_, rfl, rfl⟩
    · exact ⟨_, rfl, h⟩
  obtain ⟨t, h4, q4⟩ := q4
  obtain ⟨v5, h5, _, h6, _⟩ := say_same (w := { w with term := t }) q4 []
  simp only [reportPair, h4, andThen, h5]
  exact ⟨v5, rfl, h6⟩

theorem writeFile_exists {w : World} (hf : w.fates = []) {p : Path} (he : w.fs.entry (w.fs.loc p) ≠ none) (b : Bytes) :
    writeFile w false (.file p) b = (.err .io, w) := by
  have hn : w.nextFate = none := by rw [World.nextFate, hf]; rfl
  have ho : openOutput w.fs false (.file p) = none := by
    simp only [openOutput, Bool.false_eq_true, if_false, FS.createNew]
    cases h : w.fs.entry (w.fs.loc p) with
    | none => exact absurd h he
    | some n => rfl
  rw [writeFile, hn]
  simp only [ho, hf, List.tail_nil]
  rw [← hf]

theorem writeFile_free {w : World} (hf : w.fates = []) {p : Path} (he : w.fs.entry (w.fs.loc p) = none) (b : Bytes) :
    ∃ v, writeFile w false (.file p) b = (.ok (), v) ∧ v.term = w.term ∧ v.fates = [] := by
  have hn : w.nextFate = none := by rw [World.nextFate, hf]; rfl
  have ho : openOutput w.fs false (.file p) = some (w.fs.createAt (w.fs.loc p), .handle (.file w.fs.nextIno)) := by
    simp only [openOutput, Bool.false_eq_true, if_false, FS.createNew, he]
  rw [writeFile, hn]
  simp only [ho, hf, List.tail_nil]
  exact ⟨_, rfl, rfl, rfl⟩

/-- A private key file that exists: the public key file stays. -/
theorem genPair_orphan {w : World} (h : Quiet w) (hf : w.fates = []) (sha512 : Bytes → Bytes) (total idx : Nat) (pk sk : Bytes)
    (hk : sk.drop 32 = pk) (p q : Path) (hex : w.fs.entry (w.fs.loc p) ≠ none) (hq : w.fs.entry (w.fs.loc q) = none) :
    ∃ v, genPair sha512 false total idx ⟨some (.file q), .file p⟩ pk sk w = (.ok true, v) ∧
      v.fs.holds q (Text.encode (KeyText.publicKeyText sha512 pk)) := by
  rw [genPair, KeyText.privateKeyText, if_pos hk.symm]
  obtain ⟨v1, h1, q1, e1, f1⟩ := say_same h ("Keypair ".toList ++ Human.decimal (idx + 1) ++ '/' :: Human.decimal total ++ [':'])
  simp only [h1, andThen]
  obtain ⟨v2, h2, q2, e2, f2⟩ := say_same q1 ("    Public key: ".toList ++ Text.trim (KeyText.publicKeyText sha512 pk))
  simp only [h2]
  obtain ⟨v3, h3, q3, e3, f3⟩ := say_same q2 ("    Public key file: ".toList ++ outputPath (.file q))
  have e : v3.fs = w.fs := by rw [e3, e2, e1]
  obtain ⟨v4, h4, t4, f4⟩ := writeFile_free (w := v3) (by rw [f3, f2, f1, hf]) (p := q) (by rw [e]; exact hq)
    (Text.encode (KeyText.publicKeyText sha512 pk))
  have q4 : Quiet v4 := by unfold Quiet; rw [t4]; exact q3
  obtain ⟨hg, hh⟩ := writeFile_new v3 (.file q) (Text.encode (KeyText.publicKeyText sha512 pk))
  rw [h4] at hg hh
  obtain ⟨v5, h5, q5, e5, f5⟩ := say_same q4 ("    Private key file: ".toList ++ outputPath (.file p))
  have hex5 : v5.fs.entry (v5.fs.loc p) ≠ none := by
    rw [e5, hg.loc, e]
    cases hn : w.fs.entry (w.fs.loc p) with
    | none => exact absurd hn hex
    | some node => rw [hg.entry _ node (by rw [e]; exact hn)]; simp
  have h6 := writeFile_exists (w := v5) (by rw [f5, f4]) hex5
    (Text.encode (Hex.toHexStringChecksummed sha512 (sk.take 32) ++ KeyText.publicKeyText sha512 pk))
  have h7 : writePair v2 false ⟨some (.file q), .file p⟩ (KeyText.publicKeyText sha512 pk)
      (Hex.toHexStringChecksummed sha512 (sk.take 32) ++ KeyText.publicKeyText sha512 pk) = (.err .io, v5) := by
    simp only [writePair, h3, h4, h5, h6, andThen]
  rw [h7]
  obtain ⟨v8, h8, e8⟩ := reportPair_err q5 .io
  exact ⟨v8, h8, by rw [e8, e5]; exact hh rfl q rfl⟩

end Rypt.GenKeys

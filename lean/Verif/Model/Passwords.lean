import Verif.Model.UI

/-! Model of the interactive entry of passwords, src/cli/credentials.rs:405-442. -/

namespace Rypt.Cli

open UI

/-- src/cli/mod.rs:23-27. -/
inductive CryptDirection where
  | encrypt
  | decrypt
  deriving DecidableEq, Repr

/-- src/cli/credentials.rs:422-441: the loop. -/
def passwordLoop (dir : CryptDirection) (t : Term) (message : List Char) : Res (List Char) × Term :=
  match _h : readPassword t message with
  | (.ok password, t1) =>
    if password = [] then
      match _h2 : printlnInteractive t1 "Password can not be empty, try again.".toList with
      | (.ok (), t2) => passwordLoop dir t2 message
      | (.err e, t2) => (.err e, t2)
      | (.panic, t2) => (.panic, t2)
    else if dir = .encrypt then
      match _h3 : readPassword t1 "Confirm password: ".toList with
      | (.ok passwordAgain, t2) =>
        if passwordAgain ≠ password then
          match _h4 : printlnInteractive t2 "Passwords don't match, try again.".toList with
          | (.ok (), t3) => passwordLoop dir t3 message
          | (.err e, t3) => (.err e, t3)
          | (.panic, t3) => (.panic, t3)
        else
          match printlnInteractive t2 [] with
          | (.ok (), t3) => (.ok password, t3)
          | (.err e, t3) => (.err e, t3)
          | (.panic, t3) => (.panic, t3)
      | (.err e, t2) => (.err e, t2)
      | (.panic, t2) => (.panic, t2)
    else
      match printlnInteractive t1 [] with
      | (.ok (), t2) => (.ok password, t2)
      | (.err e, t2) => (.err e, t2)
      | (.panic, t2) => (.panic, t2)
  | (.err e, t1) => (.err e, t1)
  | (.panic, t1) => (.panic, t1)
termination_by t.stdin.length
decreasing_by
  · have h1 := readPassword_length _h
    have h2 := printlnInteractive_stdin t1 "Password can not be empty, try again.".toList
    rw [_h2] at h2
    rw [h2]; exact h1
  · have h1 := readPassword_length _h
    have h3 := readPassword_length _h3
    have h4 := printlnInteractive_stdin t2 "Passwords don't match, try again.".toList
    rw [_h4] at h4
    rw [h4]; omega

/-- src/cli/credentials.rs:405-442; the result is the text of the password. -/
def readPasswordInteractively (dir : CryptDirection) (t : Term) (passwordName : Option (List Char)) : Res (List Char) × Term :=
  if ¬ canRead t then (.err (.other "can't read password"), t)
  else
    let suffix := match passwordName with
      | some name => " (".toList ++ name ++ [')']
      | none => []
    passwordLoop dir t ("Enter password".toList ++ suffix ++ [':', ' '])

end Rypt.Cli

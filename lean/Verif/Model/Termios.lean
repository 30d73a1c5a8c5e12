import Verif.Model.Base

/-!
Model of src/terminal.rs: the settings of the terminal, and switching its echo.
-/

namespace Rypt.UI

/-- The settings of a terminal: `struct termios` of libc (Linux). src/terminal.rs:53 `tty`. -/
structure Termios where
  iflag : BitVec 32
  oflag : BitVec 32
  cflag : BitVec 32
  lflag : BitVec 32
  line : UInt8
  cc : List UInt8
  ispeed : BitVec 32
  ospeed : BitVec 32
  deriving DecidableEq, Repr

/-- `libc::ECHO` (Linux: octal 10). src/terminal.rs:51. -/
def ECHO : BitVec 32 := 8#32

/-- `std::mem::zeroed()`. src/terminal.rs:53. -/
def Termios.zeroed : Termios := ⟨0, 0, 0, 0, 0, List.replicate 32 0, 0, 0⟩

/-- The terminal shows what is typed. What `ECHO` in `c_lflag` is for: src/terminal.rs:55-59. -/
def Termios.echoes (tty : Termios) : Bool := tty.lflag &&& ECHO != 0

/-- src/terminal.rs:55-59: the change made to the settings. -/
def Termios.change (tty : Termios) (enable : Bool) : Termios :=
  if enable then { tty with lflag := tty.lflag ||| ECHO } else { tty with lflag := tty.lflag &&& ~~~ECHO }

/-- Whether the two system calls of one `set_stdin_echo` work. The code ignores their results. src/terminal.rs:54, 60. -/
structure TcFate where
  /-- `tcgetattr`, src/terminal.rs:54 -/
  get : Bool
  /-- `tcsetattr`, src/terminal.rs:60 -/
  set : Bool
  deriving DecidableEq, Repr

/-- src/terminal.rs:47-62 `set_stdin_echo`: the settings afterwards. A `tcgetattr` that fails leaves the zeroed structure; a `tcsetattr`
that fails changes nothing. -/
def setEcho (tty : Termios) (fate : TcFate) (enable : Bool) : Termios :=
  if fate.set then (if fate.get then tty else Termios.zeroed).change enable else tty

end Rypt.UI

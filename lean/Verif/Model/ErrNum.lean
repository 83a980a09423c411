import Verif.Basic
/-! Model of include/error.h:38-72, class ErrNum. `int`/`int32_t` are `BitVec 32`; none of the shifts overflows. -/
namespace Strpp.ErrNum

/-- include/error.h:41 (seven hexadecimal digits: bit 27) -/
def ERR_FLAG : BitVec 32 := 0x8000000#32
/-- include/error.h:42 (bit 26) -/
def ERR_CUST : BitVec 32 := 0x4000000#32

/-- include/error.h:46-47, `ErrNum(int set, int msg)` -/
def mk (set msg : BitVec 32) : BitVec 32 :=
  ERR_FLAG ||| ERR_CUST ||| ((set &&& 0xFFFF#32) <<< 14) ||| (msg &&& 0x3FFF#32)

/-- include/error.h:44-45 -/
def none : BitVec 32 := 0#32

/-- include/error.h:48-49, `ErrNum(int32_t setmsg)` -/
def ofInt32 (setmsg : BitVec 32) : BitVec 32 :=
  if setmsg != 0#32 then setmsg ||| ERR_FLAG ||| ERR_CUST else 0#32

/-- include/error.h:54-55; `>>` of an `int` is arithmetic -/
def set (e : BitVec 32) : BitVec 32 := (e.sshiftRight 14) &&& 0xFFFF#32

/-- include/error.h:56-57 -/
def msg (e : BitVec 32) : BitVec 32 := e &&& 0x3FFF#32

/-- include/error.h:68-69, conversion to int32_t -/
def toInt32 (e : BitVec 32) : BitVec 32 := e

end Strpp.ErrNum

/-!
# Model of the timing macros (include/zsl/instrumentation.h)
-/

namespace Verif

/-- instrumentation.h:17-19 `ZSL_INSTR_START`: the value of the cycle counter. -/
def instrStart (now : BitVec 32) : BitVec 32 := now

/-- instrumentation.h:27, the number of cycles in `ZSL_INSTR_STOP`; `t` is the start, `end_` the counter now. Unsigned arithmetic of 32 bits. -/
def instrCycles (t end_ : BitVec 32) : BitVec 32 := if end_ < t then 0xFFFFFFFF#32 - t + end_ else end_ - t

/-- instrumentation.h:25-29 `ZSL_INSTR_STOP`; `conv` is Zephyr's `k_cyc_to_ns_floor32`. -/
def instrStop (conv : BitVec 32 → BitVec 32) (t end_ : BitVec 32) : BitVec 32 := conv (instrCycles t end_)

end Verif

import Verif.Model.Attitude
import Verif.Model.Calibration
import Verif.Model.Colorimetry

/-!
# Model of src/shell.c, src/orientation/shell.c and src/colorimetry/shell.c

A command gets its words (`argv`; the first one is the name of the command) and returns a code and the lines it has printed, one constructor
of `ShLine` for each format string with data. The texts themselves are not modelled, nor is the registration of the commands with the
Zephyr shell, which calls the handlers. `parse` stands for `strtof(s, NULL)`; it is arbitrary.
-/

namespace Verif

open Out

/-- The lines printed by the commands. src/shell.c:20, src/colorimetry/shell.c:17-101, src/orientation/shell.c:17-82. -/
inductive ShLine (R : Type) where
  /-- The usage text of a command. -/
  | help
  /-- `Error: invalid argument "%s"` -/
  | invalidArg (arg : String)
  /-- `Error: missing argument: "%s"` -/
  | missingArg (name : String)
  /-- `Error: unexpected return code: "%d"` -/
  | badCode (rc : Int)
  /-- `%f m/s^2` -/
  | gravity (g : R)
  /-- `%d K to sRGB (D65) = %d %d %d` -/
  | rgb8 (kelvin r g b : Nat)
  /-- `%d K to sRGB (D65) = %f %f %f` -/
  | rgbf (kelvin : Nat) (r g b : R)
  /-- `Gamut Warning: %c%c%c`; `true` prints the letter, `false` a dot. -/
  | gamut (r g b : Bool)
  /-- The version of the library. -/
  | version (s : String)

variable {R : Type} [CReal R]

/-- src/orientation/shell.c:14-20 `zsl_orient_shell_invalid_arg`, src/colorimetry/shell.c:14-20 `zsl_clr_shell_invalid_arg`. -/
def shInvalidArg (arg : String) : Int × List (ShLine R) := (-EINVAL, [.invalidArg arg])

/-- src/orientation/shell.c:22-28 `zsl_orient_shell_missing_arg`. -/
def shMissingArg (name : String) : Int × List (ShLine R) := (-EINVAL, [.missingArg name])

/-- src/orientation/shell.c:30-36 `zsl_orient_shell_rc_code`. -/
def shRcCode (rc : Int) : Int × List (ShLine R) := (-EINVAL, [.badCode rc])

/-- src/orientation/shell.c:38-85 `zsl_orient_shell_cmd_lat2g`; `argc` is the number of words. -/
def shLat2g (parse : String → R) (argv : List String) : Out (Int × List (ShLine R)) := do
  let argc := argv.length
  let isHelp ← if argc = 1 then ok true else rd argv 1 >>= fun a => ok (a == "help")
  if isHelp then return (0, [.help])
  else if argc = 2 then return shMissingArg "altitude"
  else if argc > 3 then do
    let a ← rd argv 3
    return shInvalidArg a
  else do
    let a1 ← rd argv 1
    let lat := parse a1
    if CReal.le lat (lit 0) then return shInvalidArg a1
    else do
      let a2 ← rd argv 2
      let alt := parse a2
      if CReal.gt alt (lit 10000) || CReal.lt alt (lit (-500)) then return shInvalidArg a2
      else
        let (rc, g) := gravLatAlt lat alt
        if rc ≠ 0 then return shRcCode rc
        else return (0, [.gravity g])

/-- src/colorimetry/shell.c:22-64 `zsl_clr_shell_cmd_ct2rgb`. The usage text also prints the word before the command, which the shell
provides. `cap` and `junk` are those of the conversion. -/
def shCt2rgb (cap : Bool) (junk : Nat → R) (parse : String → R) (argv : List String) : Out (Int × List (ShLine R)) := do
  let m ← clrRgbccmGet 0
  let rgb : Rgb8 := ⟨0, 0, 0, 0, false, false, false, false⟩
  let a ← rd argv 1
  if a == "help" then return (0, [.help])
  else
    let ct := parse a
    if CReal.le ct (lit 0) then return shInvalidArg a
    else do
      let (_, rgb) ← clrCtRgb8 cap junk ct .deg2 m rgb
      let k ← realToU32 ct
      let l : List (ShLine R) := [.rgb8 k rgb.r rgb.g rgb.b]
      if rgb.rInv || rgb.gInv || rgb.bInv then return (0, l ++ [.gamut rgb.rInv rgb.gInv rgb.bInv])
      else return (0, l)

/-- src/colorimetry/shell.c:66-107 `zsl_clr_shell_cmd_ct2rgbf`. -/
def shCt2rgbf (cap : Bool) (junk : Nat → R) (parse : String → R) (argv : List String) : Out (Int × List (ShLine R)) := do
  let m ← clrRgbccmGet 0
  let rgb : Rgbf R := ⟨lit 0, lit 0, lit 0, lit 0, false, false, false, false⟩
  let a ← rd argv 1
  if a == "help" then return (0, [.help])
  else
    let ct := parse a
    if CReal.le ct (lit 0) then return shInvalidArg a
    else do
      let (_, rgb) ← clrCtRgbf cap junk ct .deg2 m rgb
      let k ← realToU32 ct
      let l : List (ShLine R) := [.rgbf k rgb.r rgb.g rgb.b]
      if rgb.rInv || rgb.gInv || rgb.bInv then return (0, l ++ [.gamut rgb.rInv rgb.gInv rgb.bInv])
      else return (0, l)

/-- src/shell.c:14-23 `zsl_shell_cmd_version`; `v` is `ZSL_VERSION` (src/zsl.c:9), which the build defines. -/
def shVersion (v : String) (_argv : List String) : Int × List (ShLine R) := (0, [.version v])

end Verif

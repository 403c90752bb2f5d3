#!/usr/bin/env python3
"""Generates lean/Verif/Model/ColorTables.lean from the static tables in /repo/src/colorimetry."""
import re

SRC = "/repo/src/colorimetry/"


def num(s):
    s = s.strip()
    m = re.fullmatch(r"(-?)(\d+)(?:\.(\d*))?(?:[eE]([+-]?\d+))?", s)
    sign, whole, frac, e = m.group(1), m.group(2), m.group(3) or "", int(m.group(4) or 0)
    body = whole + "." + (frac or "0")
    if e:
        body += "e%d" % e
    return "(-%s)" % body if sign else body


def strip(s):
    return re.sub(r"//.*", "", re.sub(r"/\*.*?\*/", "", s, flags=re.S))


def span(text, start):
    """Lines of the initialiser that starts at the given declaration."""
    i = text.index(start)
    j = text.index("};", i)
    a = text.count("\n", 0, i) + 1
    b = text.count("\n", 0, j) + 1
    return a, b, strip(text[i:j])


def wrap(items):
    out, line = [], "  ["
    for k, it in enumerate(items):
        piece = it + ("," if k + 1 < len(items) else "]")
        if len(line) + len(piece) + 1 > 128:
            out.append(line.rstrip())
            line = "   "
        line += piece + " "
    out.append(line.rstrip())
    return "\n".join(out)


conv = open(SRC + "conv.c").read()
obs = open(SRC + "observers.c").read()
lum = open(SRC + "lumeff.c").read()
ill = open(SRC + "illuminants.c").read()
ccm = open(SRC + "rgbccms.c").read()

print("import Mathlib.Data.Rat.Defs")
print()
print("/-!")
print("# The static tables of src/colorimetry")
print()
print("Generated by checks/colortables.py from the C sources; the literals are the decimal literals of the sources.")
print("-/")
print()
print("namespace Verif")
print("""
/-- include/zsl/colorimetry.h:51-63 `enum zsl_clr_obs`; zero is the 2 degree observer. -/
inductive Obs
  | deg2
  | deg10
deriving DecidableEq, Repr

/-- include/zsl/colorimetry.h:68-120 `enum zsl_clr_illum`; zero is illuminant A. -/
inductive Illum
  | A
  | B
  | C
  | D50
  | D55
  | D65
  | E
  | ICC
deriving DecidableEq, Repr""")


def table(src, text, start, name, what, ty, rows):
    a, b, body = span(text, start)
    print()
    print("/-- src/colorimetry/%s:%d-%d %s -/" % (src, a, b, what))
    print("def %s : %s :=" % (name, ty))
    print(wrap(rows(body)))


def triples(body):
    r = re.findall(r"\{\s*([-+.\deE]+)\s*,\s*([-+.\deE]+)\s*,\s*([-+.\deE]+)\s*,?\s*\}", body)
    return ["(%s)" % ", ".join(num(x) for x in t) for t in r]


def flat(body):
    body = body[body.index("=") + 1:]
    return [num(x) for x in re.findall(r"[-+]?\d[\d.]*(?:[eE][-+]?\d+)?", body)]


def rows7(body):
    f = flat(body)
    return ["[" + ", ".join(f[7 * i:7 * i + 7]) + "]" for i in range(7)]


def pairs(body):
    r = re.findall(r"\.nm = (\d+), \.value = ([-+.\deE]+)", body)
    return ["(%s, %s)" % (a, num(b)) for a, b in r]


T3 = "List (ℚ × ℚ × ℚ)"
table("conv.c", conv, "static const zsl_real_t zsl_clr_conv_xyy_cct_ohno_2011_data", "ohno2011Data",
      "`zsl_clr_conv_xyy_cct_ohno_2011_data`.", "List (List ℚ)", rows7)
table("conv.c", conv, "static const zsl_real_t zsl_clr_conv_xyy_cct_ohno_2014_data", "ohno2014Data",
      "`zsl_clr_conv_xyy_cct_ohno_2014_data`.", "List ℚ", flat)
table("conv.c", conv, "static const zsl_real_t zsl_clr_conv_ct_uv_ohno_2014_data", "ohno2014Table",
      "`zsl_clr_conv_ct_uv_ohno_2014_data`: colour temperature, u, v.", T3, triples)
table("observers.c", obs, "static const struct zsl_clr_obs_data zsl_clr_obs_2_deg_data", "obs2Deg",
      "`zsl_clr_obs_2_deg_data`: 360 to 830 nm in steps of 5 nm.", T3, triples)
table("observers.c", obs, "static const struct zsl_clr_obs_data zsl_clr_obs_10_deg_data", "obs10Deg",
      "`zsl_clr_obs_10_deg_data`: 360 to 830 nm in steps of 5 nm.", T3, triples)
table("lumeff.c", lum, "static const struct zsl_clr_spd zsl_clr_conv_lef_cie88_photopic_5nm", "lefPhotopic",
      "`zsl_clr_conv_lef_cie88_photopic_5nm`.", "List (Nat × ℚ)", pairs)
table("lumeff.c", lum, "static const struct zsl_clr_spd zsl_clr_conv_lef_cie51_scotopic_5nm", "lefScotopic",
      "`zsl_clr_conv_lef_cie51_scotopic_5nm`.", "List (Nat × ℚ)", pairs)


def illums(body):
    r = re.findall(r"\.illuminant = ZSL_CLR_ILLUM_(\w+),\s*\.observer = ZSL_CLR_OBS_(\w+),\s*\.name = \"([^\"]*)\",\s*"
                   r"\.data = \{\s*\.xyz_x = ([\d.]+),\s*\.xyz_y = ([\d.]+),\s*\.xyz_z = ([\d.]+)", body)
    return ["(.%s, .%s, %s, %s, %s)" % (i, {"2_DEG": "deg2", "10_DEG": "deg10"}[o], num(x), num(y), num(z))
            for i, o, n, x, y, z in r]


a = ill.count("\n", 0, ill.index("static const struct zsl_clr_illum_data")) + 1
b = ill.count("\n", 0, ill.index("};", ill.index("static const struct zsl_clr_illum_data"))) + 1
print()
print("/-- src/colorimetry/illuminants.c:%d-%d `zsl_clr_illum_list`: illuminant, observer, X, Y, Z (the display names are left out). -/" % (a, b))
print("def illumTable : List (Illum × Obs × ℚ × ℚ × ℚ) :=")
print(wrap(illums(strip(ill))))

i = ccm.index("static struct zsl_mtx zsl_clr_rgb_ccm_list")
a = ccm.count("\n", 0, i) + 1
b = ccm.count("\n", 0, ccm.index("\n};", i)) + 2
ms = re.findall(r"\.sz_rows = (\d+),\s*\.sz_cols = (\d+),\s*\.data = \(zsl_real_t\[\]\) \{([^}]*)\}", strip(ccm))
print()
print("/-- src/colorimetry/rgbccms.c:%d-%d `zsl_clr_rgb_ccm_list`: rows, columns, row-major entries. -/" % (a, b))
print("def ccmTable : List (Nat × Nat × List ℚ) :=")
print("  [" + ",\n   ".join("(%s, %s, [%s])" % (r, c, ", ".join(num(x) for x in d.split(","))) for r, c, d in ms) + "]")

hdr = open("/repo/include/zsl/colorimetry.h").read()


def enum(name, prefix, lean, what):
    i = hdr.index("enum %s {" % name)
    j = hdr.index("};", i)
    names = re.findall(prefix + r"(\w+)", strip(hdr[i:j]))
    a, b = hdr.count("\n", 0, i) + 1, hdr.count("\n", 0, j) + 1
    print()
    print("/-- include/zsl/colorimetry.h:%d-%d `enum %s`: %s. -/" % (a, b, name, what))
    print("def %s : List String :=" % lean)
    print(wrap(['"%s"' % n for n in names]))


enum("zsl_clr_rgb_ccm", "ZSL_CLR_RGB_CCM_", "ccmNames", "the enumerators in order")
print()
print("end Verif")

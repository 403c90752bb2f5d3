/-!
# Model of the measurement header (include/zsl/measurement)

The header is twelve bytes of memory, here a number of 96 bits: bit `k` of byte `j` is bit `8 j + k`. Members are laid out in the order of
their declaration, bit-fields from the least significant bit of their unit, as the ABIs of the supported little-endian targets do (Arm, RISC-V,
x86 with GCC or Clang). No padding arises: every group of bit-fields fills its unit and every member is aligned. The payload pointer
(`struct zsl_measurement`) is not modelled; `zsl_mes_print` is declared and has no definition.
-/

namespace Verif

/-- The members of `struct zsl_mes_header` (measurement.h:63-142) that are not unions. -/
inductive MesMember
  | baseType | extType | dataFormat | encoding | compression | timestamp | flagsRsvd
  | siUnit | ctype | scaleFactor
  | len | fragment | srclenRsvd | samples | sourceid
deriving DecidableEq, Repr

namespace MesMember

/-- Declared widths in bits: measurement.h:68, 70, 75-83, 100, 110, 117, 127, 130-134, 137. -/
def width : MesMember → Nat
  | baseType => 8
  | extType => 8
  | dataFormat => 3
  | encoding => 4
  | compression => 3
  | timestamp => 3
  | flagsRsvd => 3
  | siUnit => 16
  | ctype => 8
  | scaleFactor => 8
  | len => 16
  | fragment => 2
  | srclenRsvd => 2
  | samples => 4
  | sourceid => 8

/-- The order of declaration in measurement.h:63-142. -/
def decl : List MesMember :=
  [baseType, extType, dataFormat, encoding, compression, timestamp, flagsRsvd, siUnit, ctype, scaleFactor, len, fragment, srclenRsvd, samples,
    sourceid]

/-- The position of a member: the widths of the members declared before it. measurement.h:63-142. -/
def off (m : MesMember) : Nat := ((decl.takeWhile (· ≠ m)).map width).sum

end MesMember

/-- The memory of a header. measurement.h:63-142. -/
abbrev MesHeader := BitVec 96

/-- Reading `w` bits at position `o`: members, and the words `filter_bits`, `unit_bits`, `srclen_bits` and `flags_bits`
(measurement.h:86, 90, 120, 140), which are the same memory by way of the unions. -/
def mesRead (h : MesHeader) (o w : Nat) : BitVec w := h.extractLsb' o w

/-- Storing `w` bits at position `o`: the bits are masked out and the value is shifted in. For the bit-fields of measurement.h:75-83, 130-134. -/
def mesWrite (h : MesHeader) (o w : Nat) (v : BitVec w) : MesHeader :=
  (h &&& ~~~((BitVec.allOnes w).setWidth 96 <<< o)) ||| (v.setWidth 96 <<< o)

/-- Reading a member. measurement.h:63-142. -/
def mesGet (h : MesHeader) (m : MesMember) : BitVec m.width := mesRead h m.off m.width

/-- Assigning to a member; the value has already been converted to its width. measurement.h:63-142. -/
def mesSet (h : MesHeader) (m : MesMember) (v : BitVec m.width) : MesHeader := mesWrite h m.off m.width v

/-- measurement.h:90 `filter_bits`. -/
def mesFilterBits (h : MesHeader) : BitVec 32 := mesRead h 0 32

/-- measurement.h:120 `unit_bits`. -/
def mesUnitBits (h : MesHeader) : BitVec 32 := mesRead h 32 32

/-- measurement.h:140 `srclen_bits`. -/
def mesSrclenBits (h : MesHeader) : BitVec 32 := mesRead h 64 32

/-- measurement.h:86 `flags_bits`. -/
def mesFlagsBits (h : MesHeader) : BitVec 16 := mesRead h 16 16

/-! ### Enumerations -/

/-- include/zsl/measurement/base.h:52-102 `enum zsl_mes_type`. -/
def mesTypes : List (String × Nat) :=
  [("ZSL_MES_TYPE_UNDEFINED", 0x0), ("ZSL_MES_TYPE_AREA", 0x10), ("ZSL_MES_TYPE_ACCELERATION", 0x11), ("ZSL_MES_TYPE_AMPLITUDE", 0x12),
   ("ZSL_MES_TYPE_CAPACITANCE", 0x13), ("ZSL_MES_TYPE_COLOR", 0x14), ("ZSL_MES_TYPE_COORDINATES", 0x15),
   ("ZSL_MES_TYPE_CURRENT", 0x16), ("ZSL_MES_TYPE_DIMENSION", 0x17), ("ZSL_MES_TYPE_FREQUENCY", 0x18), ("ZSL_MES_TYPE_HUMIDITY", 0x19),
   ("ZSL_MES_TYPE_INDUCTANCE", 0x1a), ("ZSL_MES_TYPE_LIGHT", 0x1b), ("ZSL_MES_TYPE_MAGNETIC_FIELD", 0x1c), ("ZSL_MES_TYPE_MASS", 0x1d),
   ("ZSL_MES_TYPE_MOMENTUM", 0x1e), ("ZSL_MES_TYPE_ORIENTATION", 0x1f), ("ZSL_MES_TYPE_PHASE", 0x20), ("ZSL_MES_TYPE_PRESSURE", 0x21),
   ("ZSL_MES_TYPE_RESISTANCE", 0x22), ("ZSL_MES_TYPE_SOUND", 0x23), ("ZSL_MES_TYPE_TEMPERATURE", 0x24), ("ZSL_MES_TYPE_TIME", 0x25),
   ("ZSL_MES_TYPE_VELOCITY", 0x26), ("ZSL_MES_TYPE_VOLTAGE", 0x27), ("ZSL_MES_TYPE_VOLUME", 0x28), ("ZSL_MES_TYPE_ACIDITY", 0x29),
   ("ZSL_MES_TYPE_CONDUCTIVITY", 0x2a), ("ZSL_MES_TYPE_FORCE", 0x2b), ("ZSL_MES_TYPE_ENERGY", 0x2c), ("ZSL_MES_TYPE_USER_1", 0xf0),
   ("ZSL_MES_TYPE_USER_2", 0xf1), ("ZSL_MES_TYPE_USER_3", 0xf2), ("ZSL_MES_TYPE_USER_4", 0xf3), ("ZSL_MES_TYPE_USER_5", 0xf4),
   ("ZSL_MES_TYPE_USER_6", 0xf5), ("ZSL_MES_TYPE_USER_7", 0xf6), ("ZSL_MES_TYPE_USER_8", 0xf7), ("ZSL_MES_TYPE_USER_9", 0xf8),
   ("ZSL_MES_TYPE_USER_10", 0xf9), ("ZSL_MES_TYPE_USER_11", 0xfa), ("ZSL_MES_TYPE_USER_12", 0xfb), ("ZSL_MES_TYPE_USER_13", 0xfc),
   ("ZSL_MES_TYPE_USER_14", 0xfd), ("ZSL_MES_TYPE_USER_15", 0xfe), ("ZSL_MES_TYPE_MAX", 0xff)]

/-- include/zsl/measurement/unit.h:45-94 `enum zsl_mes_unit_ctype`. -/
def mesCtypes : List (String × Nat) :=
  [("ZSL_MES_UNIT_CTYPE_UNDEFINED", 0x0), ("ZSL_MES_UNIT_CTYPE_IEEE754_FLOAT32", 0x10), ("ZSL_MES_UNIT_CTYPE_IEEE754_FLOAT64", 0x11),
   ("ZSL_MES_UNIT_CTYPE_IEEE754_FLOAT128", 0x12), ("ZSL_MES_UNIT_CTYPE_S8", 0x13), ("ZSL_MES_UNIT_CTYPE_S16", 0x14),
   ("ZSL_MES_UNIT_CTYPE_S32", 0x15), ("ZSL_MES_UNIT_CTYPE_S64", 0x16), ("ZSL_MES_UNIT_CTYPE_S128", 0x17),
   ("ZSL_MES_UNIT_CTYPE_U8", 0x18), ("ZSL_MES_UNIT_CTYPE_U16", 0x19), ("ZSL_MES_UNIT_CTYPE_U32", 0x1a),
   ("ZSL_MES_UNIT_CTYPE_U64", 0x1b), ("ZSL_MES_UNIT_CTYPE_U128", 0x1c), ("ZSL_MES_UNIT_CTYPE_BOOL", 0x1d),
   ("ZSL_MES_UNIT_CTYPE_COMPLEX_32", 0x30), ("ZSL_MES_UNIT_CTYPE_COMPLEX_64", 0x31),
   ("ZSL_MES_UNIT_CTYPE_RANG_UNIT_INTERVAL_32", 0x80), ("ZSL_MES_UNIT_CTYPE_RANG_UNIT_INTERVAL_64", 0x81),
   ("ZSL_MES_UNIT_CTYPE_RANG_PERCENT_32", 0x82), ("ZSL_MES_UNIT_CTYPE_RANG_PERCENT_64", 0x83), ("ZSL_MES_UNIT_CTYPE_USER_1", 0xf0),
   ("ZSL_MES_UNIT_CTYPE_USER_2", 0xf1), ("ZSL_MES_UNIT_CTYPE_USER_3", 0xf2), ("ZSL_MES_UNIT_CTYPE_USER_4", 0xf3),
   ("ZSL_MES_UNIT_CTYPE_USER_5", 0xf4), ("ZSL_MES_UNIT_CTYPE_USER_6", 0xf5), ("ZSL_MES_UNIT_CTYPE_USER_7", 0xf6),
   ("ZSL_MES_UNIT_CTYPE_USER_8", 0xf7), ("ZSL_MES_UNIT_CTYPE_USER_9", 0xf8), ("ZSL_MES_UNIT_CTYPE_USER_10", 0xf9),
   ("ZSL_MES_UNIT_CTYPE_USER_11", 0xfa), ("ZSL_MES_UNIT_CTYPE_USER_12", 0xfb), ("ZSL_MES_UNIT_CTYPE_USER_13", 0xfc),
   ("ZSL_MES_UNIT_CTYPE_USER_14", 0xfd), ("ZSL_MES_UNIT_CTYPE_USER_15", 0xfe), ("ZSL_MES_UNIT_CTYPE_MAX", 0xff)]

/-- include/zsl/measurement/unit.h:114-312 `enum zsl_mes_unit_si`. -/
def mesUnits : List (String × Nat) :=
  [("ZSL_MES_UNIT_SI_UNDEFINED", 0x0), ("ZSL_MES_UNIT_SI_AMPERE", 0x10), ("ZSL_MES_UNIT_SI_CANDELA", 0x11),
   ("ZSL_MES_UNIT_SI_KELVIN", 0x12), ("ZSL_MES_UNIT_SI_KILOGRAM", 0x13), ("ZSL_MES_UNIT_SI_METER", 0x14),
   ("ZSL_MES_UNIT_SI_MOLE", 0x15), ("ZSL_MES_UNIT_SI_SECOND", 0x16), ("ZSL_MES_UNIT_SI_BECQUEREL", 0x20),
   ("ZSL_MES_UNIT_SI_COULOMB", 0x21), ("ZSL_MES_UNIT_SI_DEGREE_CELSIUS", 0x22), ("ZSL_MES_UNIT_SI_FARAD", 0x23),
   ("ZSL_MES_UNIT_SI_GRAY", 0x24), ("ZSL_MES_UNIT_SI_HENRY", 0x25), ("ZSL_MES_UNIT_SI_HERTZ", 0x26), ("ZSL_MES_UNIT_SI_JOULE", 0x27),
   ("ZSL_MES_UNIT_SI_KATAL", 0x28), ("ZSL_MES_UNIT_SI_LUMEN", 0x29), ("ZSL_MES_UNIT_SI_LUX", 0x2a), ("ZSL_MES_UNIT_SI_NEWTON", 0x2b),
   ("ZSL_MES_UNIT_SI_OHM", 0x2c), ("ZSL_MES_UNIT_SI_PASCAL", 0x2d), ("ZSL_MES_UNIT_SI_RADIAN", 0x2e),
   ("ZSL_MES_UNIT_SI_SIEMENS", 0x2f), ("ZSL_MES_UNIT_SI_SIEVERT", 0x30), ("ZSL_MES_UNIT_SI_STERADIAN", 0x31),
   ("ZSL_MES_UNIT_SI_TESLA", 0x32), ("ZSL_MES_UNIT_SI_VOLT", 0x33), ("ZSL_MES_UNIT_SI_WATT", 0x34), ("ZSL_MES_UNIT_SI_WEBER", 0x35),
   ("ZSL_MES_UNIT_SI_PERCENT", 0x80), ("ZSL_MES_UNIT_SI_INTERVAL", 0x81), ("ZSL_MES_UNIT_SI_METERS_2", 0x1000),
   ("ZSL_MES_UNIT_SI_METER_PER_SECOND_2", 0x1100), ("ZSL_MES_UNIT_SI_RELATIVE_HUMIDITY", 0x1900),
   ("ZSL_MES_UNIT_SI_CANDELA_PER_METER_2", 0x1b00), ("ZSL_MES_UNIT_SI_JOULE_PER_METER_2", 0x1b01),
   ("ZSL_MES_UNIT_SI_JOULE_PER_METER_2_PER_HZ", 0x1b02), ("ZSL_MES_UNIT_SI_JOULE_PER_METER_2_PER_NM", 0x1b03),
   ("ZSL_MES_UNIT_SI_JOULE_PER_METER_3", 0x1b04), ("ZSL_MES_UNIT_SI_LUMEN_PER_METER_2", 0x1b05),
   ("ZSL_MES_UNIT_SI_LUMEN_PER_WATT", 0x1b06), ("ZSL_MES_UNIT_SI_LUMEN_SECOND", 0x1b07),
   ("ZSL_MES_UNIT_SI_LUMEN_SECOND_PER_METER_3", 0x1b08), ("ZSL_MES_UNIT_SI_LUX_SECOND", 0x1b09),
   ("ZSL_MES_UNIT_SI_WATTS_PER_HERTZ", 0x1b0a), ("ZSL_MES_UNIT_SI_WATTS_PER_METER_2", 0x1b0b),
   ("ZSL_MES_UNIT_SI_WATTS_PER_METER_2_PER_HZ", 0x1b0c), ("ZSL_MES_UNIT_SI_WATTS_PER_METER_2_PER_NM", 0x1b0d),
   ("ZSL_MES_UNIT_SI_WATTS_PER_NM", 0x1b0e), ("ZSL_MES_UNIT_SI_WATTS_PER_STERADIAN", 0x1b0f),
   ("ZSL_MES_UNIT_SI_WATTS_PER_STERADIAN_PER_HERTZ", 0x1b10), ("ZSL_MES_UNIT_SI_WATTS_PER_STERADIAN_PER_METER_2", 0x1b11),
   ("ZSL_MES_UNIT_SI_WATTS_PER_STERADIAN_PER_METER_2_PER_HZ", 0x1b12),
   ("ZSL_MES_UNIT_SI_WATTS_PER_STERADIAN_PER_METER_2_PER_NM", 0x1b13), ("ZSL_MES_UNIT_SI_WATTS_PER_STERADIAN_PER_NM", 0x1b14),
   ("ZSL_MES_UNIT_SI_MICROTESLA", 0x1c00), ("ZSL_MES_UNIT_SI_GRAMS", 0x1d00), ("ZSL_MES_UNIT_SI_HECTOPASCAL", 0x2100),
   ("ZSL_MES_UNIT_SI_METERS_3_SECOND", 0x2601), ("ZSL_MES_UNIT_SI_MILLIVOLTS", 0x2700), ("ZSL_MES_UNIT_SI_METERS_3", 0x2800),
   ("ZSL_MES_UNIT_SI_PH", 0x2900), ("ZSL_MES_UNIT_SI_SIEMENS_PER_METER", 0x2a00), ("ZSL_MES_UNIT_SI_USER_DEFINED_1", 0xff00),
   ("ZSL_MES_UNIT_SI_USER_DEFINED_255", 0xfffe), ("ZSL_MES_UNIT_SI_MAX", 0xffff)]

/-- include/zsl/measurement/unit.h:317-339 `enum zsl_mes_si_scale`. -/
def mesScales : List (String × Int) :=
  [("ZSL_MES_SI_SCALE_YOTTA", 24), ("ZSL_MES_SI_SCALE_ZETTA", 21), ("ZSL_MES_SI_SCALE_EXA", 18), ("ZSL_MES_SI_SCALE_PETA", 15),
   ("ZSL_MES_SI_SCALE_TERA", 12), ("ZSL_MES_SI_SCALE_GIGA", 9), ("ZSL_MES_SI_SCALE_MEGA", 6), ("ZSL_MES_SI_SCALE_KILO", 3),
   ("ZSL_MES_SI_SCALE_HECTO", 2), ("ZSL_MES_SI_SCALE_DECA", 1), ("ZSL_MES_SI_SCALE_NONE", 0), ("ZSL_MES_SI_SCALE_DECI", -1),
   ("ZSL_MES_SI_SCALE_CENTI", -2), ("ZSL_MES_SI_SCALE_MILLI", -3), ("ZSL_MES_SI_SCALE_MICRO", -6), ("ZSL_MES_SI_SCALE_NANO", -9),
   ("ZSL_MES_SI_SCALE_PICO", -12), ("ZSL_MES_SI_SCALE_FEMTO", -15), ("ZSL_MES_SI_SCALE_ATTO", -18), ("ZSL_MES_SI_SCALE_ZEPTO", -21),
   ("ZSL_MES_SI_SCALE_YOCTO", -24)]

/-- include/zsl/measurement/measurement.h:156-161 `enum zsl_mes_format`. -/
def mesFormats : List (String × Nat) :=
  [("ZSL_MES_FORMAT_NONE", 0x0), ("ZSL_MES_FORMAT_CBOR", 0x1)]

/-- include/zsl/measurement/measurement.h:164-171 `enum zsl_mes_encoding`. -/
def mesEncodings : List (String × Nat) :=
  [("ZSL_MES_ENCODING_NONE", 0x0), ("ZSL_MES_ENCODING_BASE64", 0x1), ("ZSL_MES_ENCODING_BASE45", 0x2)]

/-- include/zsl/measurement/measurement.h:174-179 `enum zsl_mes_compression`. -/
def mesCompressions : List (String × Nat) :=
  [("ZSL_MES_COMPRESSION_NONE", 0x0), ("ZSL_MES_COMPRESSION_LZ4", 0x1)]

/-- include/zsl/measurement/measurement.h:182-189 `enum zsl_mes_fragment`. -/
def mesFragments : List (String × Nat) :=
  [("ZSL_MES_FRAGMENT_NONE", 0x0), ("ZSL_MES_FRAGMENT_PARTIAL", 0x1), ("ZSL_MES_FRAGMENT_FINAL", 0x2)]

/-- include/zsl/measurement/measurement.h:192-205 `enum zsl_mes_timestamp`. -/
def mesTimestamps : List (String × Nat) :=
  [("ZSL_MES_TIMESTAMP_NONE", 0x0), ("ZSL_MES_TIMESTAMP_EPOCH_32", 0x1), ("ZSL_MES_TIMESTAMP_EPOCH_64", 0x2),
   ("ZSL_MES_TIMESTAMP_UPTIME_MS_32", 0x3), ("ZSL_MES_TIMESTAMP_UPTIME_MS_64", 0x4), ("ZSL_MES_TIMESTAMP_UPTIME_US_64", 0x5)]

/-- include/zsl/measurement/ext_color.h:38-89 `enum zsl_mes_ext_color`. -/
def mesExtColor : List (String × Nat) :=
  [("ZSL_MES_EXT_TYPE_COLOR_UNDEFINED", 0x0), ("ZSL_MES_EXT_TYPE_COLOR_RGBA8", 0x10), ("ZSL_MES_EXT_TYPE_COLOR_RGBA16", 0x11),
   ("ZSL_MES_EXT_TYPE_COLOR_RGBAF", 0x12), ("ZSL_MES_EXT_TYPE_COLOR_CIE1931_XYZ", 0x30), ("ZSL_MES_EXT_TYPE_COLOR_CIE1931_XYY", 0x31),
   ("ZSL_MES_EXT_TYPE_COLOR_CIE1960_UCS", 0x32), ("ZSL_MES_EXT_TYPE_COLOR_CIE1976_UCS", 0x33),
   ("ZSL_MES_EXT_TYPE_COLOR_CIE1960_CCT", 0x34), ("ZSL_MES_EXT_TYPE_COLOR_CIE1960_CCT_DUV", 0x35)]

/-- include/zsl/measurement/ext_light.h:63-264 `enum zsl_mes_ext_light`. -/
def mesExtLight : List (String × Nat) :=
  [("ZSL_MES_EXT_TYPE_LIGHT_UNDEFINED", 0x0), ("ZSL_MES_EXT_TYPE_LIGHT_RADIO_RADIANT_ENERGY", 0x10),
   ("ZSL_MES_EXT_TYPE_LIGHT_RADIO_RADIANT_ENERGY_DENSITY", 0x11), ("ZSL_MES_EXT_TYPE_LIGHT_RADIO_RADIANT_FLUX", 0x12),
   ("ZSL_MES_EXT_TYPE_LIGHT_RADIO_SPECTRAL_FLUX_HZ", 0x13), ("ZSL_MES_EXT_TYPE_LIGHT_RADIO_SPECTRAL_FLUX_NM", 0x14),
   ("ZSL_MES_EXT_TYPE_LIGHT_RADIO_RADIANT_INTENSITY", 0x15), ("ZSL_MES_EXT_TYPE_LIGHT_RADIO_SPECTRAL_INTENSITY_HZ", 0x16),
   ("ZSL_MES_EXT_TYPE_LIGHT_RADIO_SPECTRAL_INTENSITY_NM", 0x17), ("ZSL_MES_EXT_TYPE_LIGHT_RADIO_RADIANCE", 0x18),
   ("ZSL_MES_EXT_TYPE_LIGHT_RADIO_SPECTRAL_RADIANCE_HZ", 0x19), ("ZSL_MES_EXT_TYPE_LIGHT_RADIO_SPECTRAL_RADIANCE_NM", 0x1a),
   ("ZSL_MES_EXT_TYPE_LIGHT_RADIO_IRRADIANCE", 0x1b), ("ZSL_MES_EXT_TYPE_LIGHT_RADIO_SPECTRAL_IRRADIANCE_HZ", 0x1c),
   ("ZSL_MES_EXT_TYPE_LIGHT_RADIO_SPECTRAL_IRRADIANCE_NM", 0x1d), ("ZSL_MES_EXT_TYPE_LIGHT_RADIO_RADIOSITY", 0x1e),
   ("ZSL_MES_EXT_TYPE_LIGHT_RADIO_SPECTRAL_RADIOSITY_HZ", 0x1f), ("ZSL_MES_EXT_TYPE_LIGHT_RADIO_SPECTRAL_RADIOSITY_NM", 0x20),
   ("ZSL_MES_EXT_TYPE_LIGHT_RADIO_RADIANT_EXITANCE", 0x21), ("ZSL_MES_EXT_TYPE_LIGHT_RADIO_SPECTRAL_EXITANCE_HZ", 0x22),
   ("ZSL_MES_EXT_TYPE_LIGHT_RADIO_SPECTRAL_EXITANCE_NM", 0x23), ("ZSL_MES_EXT_TYPE_LIGHT_RADIO_RADIANT_EXPOSURE", 0x24),
   ("ZSL_MES_EXT_TYPE_LIGHT_RADIO_SPECTRAL_EXPOSURE_HZ", 0x25), ("ZSL_MES_EXT_TYPE_LIGHT_RADIO_SPECTRAL_EXPOSURE_NM", 0x26),
   ("ZSL_MES_EXT_TYPE_LIGHT_PHOTO_LUM_ENERGY", 0x40), ("ZSL_MES_EXT_TYPE_LIGHT_PHOTO_LUM_FLUX", 0x41),
   ("ZSL_MES_EXT_TYPE_LIGHT_PHOTO_LUM_INTENSITY", 0x42), ("ZSL_MES_EXT_TYPE_LIGHT_PHOTO_LUMINANCE", 0x43),
   ("ZSL_MES_EXT_TYPE_LIGHT_PHOTO_ILLUMINANCE", 0x44), ("ZSL_MES_EXT_TYPE_LIGHT_PHOTO_LUM_EXITANCE", 0x45),
   ("ZSL_MES_EXT_TYPE_LIGHT_PHOTO_LUM_EXPOSURE", 0x46), ("ZSL_MES_EXT_TYPE_LIGHT_PHOTO_LUM_ENERGY_DENSITY", 0x47),
   ("ZSL_MES_EXT_TYPE_LIGHT_PHOTO_LUM_EFFICACY_RAD", 0x48), ("ZSL_MES_EXT_TYPE_LIGHT_PHOTO_LUM_EFFICACY_SRC", 0x49)]

/-- include/zsl/measurement/ext_temperature.h:30-50 `enum zsl_mes_ext_temperature`. -/
def mesExtTemp : List (String × Nat) :=
  [("ZSL_MES_EXT_TYPE_TEMP_UNDEFINED", 0x0), ("ZSL_MES_EXT_TYPE_TEMP_AMBIENT", 0x1), ("ZSL_MES_EXT_TYPE_TEMP_DIE", 0x2),
   ("ZSL_MES_EXT_TYPE_TEMP_OBJECT", 0x3)]

end Verif

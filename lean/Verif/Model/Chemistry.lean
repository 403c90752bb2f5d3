import Mathlib.Data.Rat.Defs
import Verif.Base.CReal

/-!
# Model of chemistry.c
-/

namespace Verif

/-- src/chemistry.c:13-133 `zsl_chem_atom_weight`: the table of standard atomic weights, indexed by atomic number. -/
def chemAtomWeight : List ℚ :=
  [0.0, 1.0079, 4.0026, 6.941, 9.0122, 10.811, 12.0107, 14.0067, 15.9994, 18.9984, 20.1797, 22.9897, 24.305,
   26.9815, 28.0855, 30.9738, 32.065, 35.453, 39.948, 39.0983, 40.078, 44.9559, 47.867, 50.9415, 51.9961, 54.938,
   55.845, 58.9332, 58.6934, 63.546, 65.39, 69.723, 72.64, 74.9216, 78.96, 79.904, 83.8, 85.4678, 87.62, 88.9059,
   91.224, 92.9064, 95.94, 98.0, 101.07, 102.9055, 106.42, 107.8682, 112.411, 114.818, 118.71, 121.76, 127.6,
   126.9045, 131.293, 132.9055, 137.327, 138.9055, 140.116, 140.9077, 144.24, 145.0, 150.36, 151.964, 157.25,
   158.9253, 162.5, 164.9303, 167.259, 168.9342, 173.04, 174.967, 178.49, 180.9479, 183.84, 186.207, 190.23,
   192.217, 195.078, 196.9665, 200.59, 204.3833, 207.2, 208.9804, 209.0, 210.0, 222.0, 223.0, 226.0, 227.0,
   232.0381, 231.0359, 238.0289, 237.0, 244.0, 0.0, 0.0, 0.0, 0.0, 0.0, 0.0, 0.0, 0.0, 0.0, 0.0, 0.0, 0.0, 0.0,
   0.0, 0.0, 0.0, 0.0, 0.0, 0.0, 0.0, 0.0, 0.0, 0.0, 0.0]

/-- include/zsl/chemistry.h:42-161 `enum zsl_chem_elements`: the names of the enumerators and their values. -/
def chemElements : List (String × Nat) :=
  [("HYDROGEN", 1), ("HELIUM", 2), ("LITHIUM", 3), ("BERYLLIUM", 4), ("BORON", 5), ("CARBON", 6), ("NITROGEN", 7),
   ("OXYGEN", 8), ("FLUORINE", 9), ("NEON", 10), ("SODIUM", 11), ("MAGNESIUM", 12), ("ALUMINIUM", 13),
   ("SILICON", 14), ("PHOSPHORUS", 15), ("SULFUR", 16), ("CHLORINE", 17), ("ARGON", 18), ("POTASSIUM", 19),
   ("CALCIUM", 20), ("SCANDIUM", 21), ("TITANIUM", 22), ("VANADIUM", 23), ("CHROMIUM", 24), ("MANGANESE", 25),
   ("IRON", 26), ("COBALT", 27), ("NICKEL", 28), ("COPPER", 29), ("ZINC", 30), ("GALLIUM", 31), ("GERMANIUM", 32),
   ("ARSENIC", 33), ("SELENIUM", 34), ("BROMINE", 35), ("KRYPTON", 36), ("RUBIDIUM", 37), ("STRONTIUM", 38),
   ("YTTRIUM", 39), ("ZIRCONIUM", 40), ("NIOBIUM", 41), ("MOLYBDENUM", 42), ("TECHNETIUM", 43), ("RUTHENIUM", 44),
   ("RHODIUM", 45), ("PALLADIUM", 46), ("SILVER", 47), ("CADMIUM", 48), ("INDIUM", 49), ("TIN", 50),
   ("ANTIMONY", 51), ("TELLURIUM", 52), ("IODINE", 53), ("XENON", 54), ("CAESIUM", 55), ("BARIUM", 56),
   ("LANTHANUM", 57), ("CERIUM", 58), ("PRASEODYMIUM", 59), ("NEODYMIUM", 60), ("PROMETHIUM", 61),
   ("SAMARIUM", 62), ("EUROPIUM", 63), ("GADOLINIUM", 64), ("TERBIUM", 65), ("DYSPROSIUM", 66), ("HOLMIUM", 67),
   ("ERBIUM", 68), ("THULIUM", 69), ("YTTERBIUM", 70), ("LUTETIUM", 71), ("HAFNIUM", 72), ("TANTALUM", 73),
   ("TUNGSTEN", 74), ("RHENIUM", 75), ("OSMIUM", 76), ("IRIDIUM", 77), ("PLATINUM", 78), ("GOLD", 79),
   ("MERCURY", 80), ("THALLIUM", 81), ("LEAD", 82), ("BISMUTH", 83), ("POLONIUM", 84), ("ASTATINE", 85),
   ("RADON", 86), ("FRANCIUM", 87), ("RADIUM", 88), ("ACTINIUM", 89), ("THORIUM", 90), ("PROTACTINIUM", 91),
   ("URANIUM", 92), ("NEPTUNIUM", 93), ("PLUTONIUM", 94), ("AMERICIUM", 95), ("CURIUM", 96), ("BERKELIUM", 97),
   ("CALIFORNIUM", 98), ("EINSTEINIUM", 99), ("FERMIUM", 100), ("MENDELEVIUM", 101), ("NOBELIUM", 102),
   ("LAWRENCIUM", 103), ("RUTHERFORDIUM", 104), ("DUBNIUM", 105), ("SEABORGIUM", 106), ("BOHRIUM", 107),
   ("HASSIUM", 108), ("MEITNERIUM", 109), ("DARMSTADTIUM", 110), ("ROENTGENIUM", 111), ("COPERNICIUM", 112),
   ("NIHONIUM", 113), ("FLEROVIUM", 114), ("MOSCOVIUM", 115), ("LIVERMORIUM", 116), ("TENNESSINE", 117),
   ("OGANESSON", 118)]

/-- `zsl_chem_atom_weight[z]` (a bare array access, out of bounds is undefined). chemistry.c:13. -/
def chemWeight {R : Type} [CReal R] (z : Nat) : Out R := do
  let q ← rd chemAtomWeight z
  return lit q

end Verif

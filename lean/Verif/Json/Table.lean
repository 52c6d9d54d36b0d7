/-!
# Tables of `lib/json/JSON_parser.c`

Character classes, state codes, action codes and the two tables, transcribed from the C
source (lib/json/JSON_parser.c 119-289) with the same names and layout.
-/

namespace Verif.JsonTok

/-! Character classes, `enum classes` (lib/json/JSON_parser.c 119-153). -/
abbrev C_SPACE : Int := 0
abbrev C_WHITE : Int := 1
abbrev C_LCURB : Int := 2
abbrev C_RCURB : Int := 3
abbrev C_LSQRB : Int := 4
abbrev C_RSQRB : Int := 5
abbrev C_COLON : Int := 6
abbrev C_COMMA : Int := 7
abbrev C_QUOTE : Int := 8
abbrev C_BACKS : Int := 9
abbrev C_SLASH : Int := 10
abbrev C_PLUS : Int := 11
abbrev C_MINUS : Int := 12
abbrev C_POINT : Int := 13
abbrev C_ZERO : Int := 14
abbrev C_DIGIT : Int := 15
abbrev C_LOW_A : Int := 16
abbrev C_LOW_B : Int := 17
abbrev C_LOW_C : Int := 18
abbrev C_LOW_D : Int := 19
abbrev C_LOW_E : Int := 20
abbrev C_LOW_F : Int := 21
abbrev C_LOW_L : Int := 22
abbrev C_LOW_N : Int := 23
abbrev C_LOW_R : Int := 24
abbrev C_LOW_S : Int := 25
abbrev C_LOW_T : Int := 26
abbrev C_LOW_U : Int := 27
abbrev C_ABCDF : Int := 28
abbrev C_E : Int := 29
abbrev C_ETC : Int := 30
abbrev C_STAR : Int := 31

/-! State codes, `enum states` (lib/json/JSON_parser.c 186-224). -/
abbrev GO : Int := 0
abbrev OK : Int := 1
abbrev OB : Int := 2
abbrev KE : Int := 3
abbrev CO : Int := 4
abbrev VA : Int := 5
abbrev AR : Int := 6
abbrev ST : Int := 7
abbrev ES : Int := 8
abbrev U1 : Int := 9
abbrev U2 : Int := 10
abbrev U3 : Int := 11
abbrev U4 : Int := 12
abbrev MI : Int := 13
abbrev ZE : Int := 14
abbrev IT : Int := 15
abbrev FR : Int := 16
abbrev E1 : Int := 17
abbrev E2 : Int := 18
abbrev E3 : Int := 19
abbrev T1 : Int := 20
abbrev T2 : Int := 21
abbrev T3 : Int := 22
abbrev F1 : Int := 23
abbrev F2 : Int := 24
abbrev F3 : Int := 25
abbrev F4 : Int := 26
abbrev N1 : Int := 27
abbrev N2 : Int := 28
abbrev N3 : Int := 29
abbrev C1 : Int := 30
abbrev C2 : Int := 31
abbrev C3 : Int := 32
abbrev FX : Int := 33
abbrev D1 : Int := 34
abbrev D2 : Int := 35

/-! Action codes, `enum actions` (lib/json/JSON_parser.c 226-241), and the universal error
code `__` (line 79), written `XX` here. -/
abbrev CB : Int := -10
abbrev CE : Int := -11
abbrev FA : Int := -12
abbrev TR : Int := -13
abbrev NU : Int := -14
abbrev DE : Int := -15
abbrev DF : Int := -16
abbrev SB : Int := -17
abbrev MX : Int := -18
abbrev ZX : Int := -19
abbrev IX : Int := -20
abbrev EX : Int := -21
abbrev UC : Int := -22
abbrev XX : Int := -1

/-- `ascii_class[128]` (lib/json/JSON_parser.c 155-180). -/
def asciiClass : List Int := [
  XX, XX, XX, XX, XX, XX, XX, XX,
  XX, C_WHITE, C_WHITE, XX, XX, C_WHITE, XX, XX,
  XX, XX, XX, XX, XX, XX, XX, XX,
  XX, XX, XX, XX, XX, XX, XX, XX,
  C_SPACE, C_ETC, C_QUOTE, C_ETC, C_ETC, C_ETC, C_ETC, C_ETC,
  C_ETC, C_ETC, C_STAR, C_PLUS, C_COMMA, C_MINUS, C_POINT, C_SLASH,
  C_ZERO, C_DIGIT, C_DIGIT, C_DIGIT, C_DIGIT, C_DIGIT, C_DIGIT, C_DIGIT,
  C_DIGIT, C_DIGIT, C_COLON, C_ETC, C_ETC, C_ETC, C_ETC, C_ETC,
  C_ETC, C_ABCDF, C_ABCDF, C_ABCDF, C_ABCDF, C_E, C_ABCDF, C_ETC,
  C_ETC, C_ETC, C_ETC, C_ETC, C_ETC, C_ETC, C_ETC, C_ETC,
  C_ETC, C_ETC, C_ETC, C_ETC, C_ETC, C_ETC, C_ETC, C_ETC,
  C_ETC, C_ETC, C_ETC, C_LSQRB, C_BACKS, C_RSQRB, C_ETC, C_ETC,
  C_ETC, C_LOW_A, C_LOW_B, C_LOW_C, C_LOW_D, C_LOW_E, C_LOW_F, C_ETC,
  C_ETC, C_ETC, C_ETC, C_ETC, C_LOW_L, C_ETC, C_LOW_N, C_ETC,
  C_ETC, C_ETC, C_LOW_R, C_LOW_S, C_LOW_T, C_LOW_U, C_ETC, C_ETC,
  C_ETC, C_ETC, C_ETC, C_LCURB, C_ETC, C_RCURB, C_ETC, C_ETC]

/-- `state_transition_table[NR_STATES][NR_CLASSES]` (lib/json/JSON_parser.c 244-289). -/
def transitionTable : List (List Int) := [
  [GO,GO,-6,XX,-5,XX,XX,XX,XX,XX,CB,XX,XX,XX,XX,XX,XX,XX,XX,XX,XX,XX,XX,XX,XX,XX,XX,XX,XX,XX,XX,XX], -- GO
  [OK,OK,XX,-8,XX,-7,XX,-3,XX,XX,CB,XX,XX,XX,XX,XX,XX,XX,XX,XX,XX,XX,XX,XX,XX,XX,XX,XX,XX,XX,XX,XX], -- OK
  [OB,OB,XX,-9,XX,XX,XX,XX,SB,XX,CB,XX,XX,XX,XX,XX,XX,XX,XX,XX,XX,XX,XX,XX,XX,XX,XX,XX,XX,XX,XX,XX], -- OB
  [KE,KE,XX,XX,XX,XX,XX,XX,SB,XX,CB,XX,XX,XX,XX,XX,XX,XX,XX,XX,XX,XX,XX,XX,XX,XX,XX,XX,XX,XX,XX,XX], -- KE
  [CO,CO,XX,XX,XX,XX,-2,XX,XX,XX,CB,XX,XX,XX,XX,XX,XX,XX,XX,XX,XX,XX,XX,XX,XX,XX,XX,XX,XX,XX,XX,XX], -- CO
  [VA,VA,-6,XX,-5,XX,XX,XX,SB,XX,CB,XX,MX,XX,ZX,IX,XX,XX,XX,XX,XX,FA,XX,NU,XX,XX,TR,XX,XX,XX,XX,XX], -- VA
  [AR,AR,-6,XX,-5,-7,XX,XX,SB,XX,CB,XX,MX,XX,ZX,IX,XX,XX,XX,XX,XX,FA,XX,NU,XX,XX,TR,XX,XX,XX,XX,XX], -- AR
  [ST,XX,ST,ST,ST,ST,ST,ST,-4,EX,ST,ST,ST,ST,ST,ST,ST,ST,ST,ST,ST,ST,ST,ST,ST,ST,ST,ST,ST,ST,ST,ST], -- ST
  [XX,XX,XX,XX,XX,XX,XX,XX,ST,ST,ST,XX,XX,XX,XX,XX,XX,ST,XX,XX,XX,ST,XX,ST,ST,XX,ST,U1,XX,XX,XX,XX], -- ES
  [XX,XX,XX,XX,XX,XX,XX,XX,XX,XX,XX,XX,XX,XX,U2,U2,U2,U2,U2,U2,U2,U2,XX,XX,XX,XX,XX,XX,U2,U2,XX,XX], -- U1
  [XX,XX,XX,XX,XX,XX,XX,XX,XX,XX,XX,XX,XX,XX,U3,U3,U3,U3,U3,U3,U3,U3,XX,XX,XX,XX,XX,XX,U3,U3,XX,XX], -- U2
  [XX,XX,XX,XX,XX,XX,XX,XX,XX,XX,XX,XX,XX,XX,U4,U4,U4,U4,U4,U4,U4,U4,XX,XX,XX,XX,XX,XX,U4,U4,XX,XX], -- U3
  [XX,XX,XX,XX,XX,XX,XX,XX,XX,XX,XX,XX,XX,XX,UC,UC,UC,UC,UC,UC,UC,UC,XX,XX,XX,XX,XX,XX,UC,UC,XX,XX], -- U4
  [XX,XX,XX,XX,XX,XX,XX,XX,XX,XX,XX,XX,XX,XX,ZE,IT,XX,XX,XX,XX,XX,XX,XX,XX,XX,XX,XX,XX,XX,XX,XX,XX], -- MI
  [OK,OK,XX,-8,XX,-7,XX,-3,XX,XX,CB,XX,XX,DF,XX,XX,XX,XX,XX,XX,XX,XX,XX,XX,XX,XX,XX,XX,XX,XX,XX,XX], -- ZE
  [OK,OK,XX,-8,XX,-7,XX,-3,XX,XX,CB,XX,XX,DF,IT,IT,XX,XX,XX,XX,DE,XX,XX,XX,XX,XX,XX,XX,XX,DE,XX,XX], -- IT
  [OK,OK,XX,-8,XX,-7,XX,-3,XX,XX,CB,XX,XX,XX,FR,FR,XX,XX,XX,XX,E1,XX,XX,XX,XX,XX,XX,XX,XX,E1,XX,XX], -- FR
  [XX,XX,XX,XX,XX,XX,XX,XX,XX,XX,XX,E2,E2,XX,E3,E3,XX,XX,XX,XX,XX,XX,XX,XX,XX,XX,XX,XX,XX,XX,XX,XX], -- E1
  [XX,XX,XX,XX,XX,XX,XX,XX,XX,XX,XX,XX,XX,XX,E3,E3,XX,XX,XX,XX,XX,XX,XX,XX,XX,XX,XX,XX,XX,XX,XX,XX], -- E2
  [OK,OK,XX,-8,XX,-7,XX,-3,XX,XX,XX,XX,XX,XX,E3,E3,XX,XX,XX,XX,XX,XX,XX,XX,XX,XX,XX,XX,XX,XX,XX,XX], -- E3
  [XX,XX,XX,XX,XX,XX,XX,XX,XX,XX,XX,XX,XX,XX,XX,XX,XX,XX,XX,XX,XX,XX,XX,XX,T2,XX,XX,XX,XX,XX,XX,XX], -- T1
  [XX,XX,XX,XX,XX,XX,XX,XX,XX,XX,XX,XX,XX,XX,XX,XX,XX,XX,XX,XX,XX,XX,XX,XX,XX,XX,XX,T3,XX,XX,XX,XX], -- T2
  [XX,XX,XX,XX,XX,XX,XX,XX,XX,XX,CB,XX,XX,XX,XX,XX,XX,XX,XX,XX,OK,XX,XX,XX,XX,XX,XX,XX,XX,XX,XX,XX], -- T3
  [XX,XX,XX,XX,XX,XX,XX,XX,XX,XX,XX,XX,XX,XX,XX,XX,F2,XX,XX,XX,XX,XX,XX,XX,XX,XX,XX,XX,XX,XX,XX,XX], -- F1
  [XX,XX,XX,XX,XX,XX,XX,XX,XX,XX,XX,XX,XX,XX,XX,XX,XX,XX,XX,XX,XX,XX,F3,XX,XX,XX,XX,XX,XX,XX,XX,XX], -- F2
  [XX,XX,XX,XX,XX,XX,XX,XX,XX,XX,XX,XX,XX,XX,XX,XX,XX,XX,XX,XX,XX,XX,XX,XX,XX,F4,XX,XX,XX,XX,XX,XX], -- F3
  [XX,XX,XX,XX,XX,XX,XX,XX,XX,XX,CB,XX,XX,XX,XX,XX,XX,XX,XX,XX,OK,XX,XX,XX,XX,XX,XX,XX,XX,XX,XX,XX], -- F4
  [XX,XX,XX,XX,XX,XX,XX,XX,XX,XX,XX,XX,XX,XX,XX,XX,XX,XX,XX,XX,XX,XX,XX,XX,XX,XX,XX,N2,XX,XX,XX,XX], -- N1
  [XX,XX,XX,XX,XX,XX,XX,XX,XX,XX,XX,XX,XX,XX,XX,XX,XX,XX,XX,XX,XX,XX,N3,XX,XX,XX,XX,XX,XX,XX,XX,XX], -- N2
  [XX,XX,XX,XX,XX,XX,XX,XX,XX,XX,CB,XX,XX,XX,XX,XX,XX,XX,XX,XX,XX,XX,OK,XX,XX,XX,XX,XX,XX,XX,XX,XX], -- N3
  [XX,XX,XX,XX,XX,XX,XX,XX,XX,XX,XX,XX,XX,XX,XX,XX,XX,XX,XX,XX,XX,XX,XX,XX,XX,XX,XX,XX,XX,XX,XX,C2], -- C1
  [C2,C2,C2,C2,C2,C2,C2,C2,C2,C2,C2,C2,C2,C2,C2,C2,C2,C2,C2,C2,C2,C2,C2,C2,C2,C2,C2,C2,C2,C2,C2,C3], -- C2
  [C2,C2,C2,C2,C2,C2,C2,C2,C2,C2,CE,C2,C2,C2,C2,C2,C2,C2,C2,C2,C2,C2,C2,C2,C2,C2,C2,C2,C2,C2,C2,C3], -- C3
  [OK,OK,XX,-8,XX,-7,XX,-3,XX,XX,XX,XX,XX,XX,FR,FR,XX,XX,XX,XX,E1,XX,XX,XX,XX,XX,XX,XX,XX,E1,XX,XX], -- FX
  [XX,XX,XX,XX,XX,XX,XX,XX,XX,D2,XX,XX,XX,XX,XX,XX,XX,XX,XX,XX,XX,XX,XX,XX,XX,XX,XX,XX,XX,XX,XX,XX], -- D1
  [XX,XX,XX,XX,XX,XX,XX,XX,XX,XX,XX,XX,XX,XX,XX,XX,XX,XX,XX,XX,XX,XX,XX,XX,XX,XX,XX,U1,XX,XX,XX,XX]] -- D2

end Verif.JsonTok

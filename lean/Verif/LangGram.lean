import Verif.Pg
/-!
# The grammar of the script language

`prod_tbl` of mln_lang_ast.c, lines 419-532: the productions of scripts, in their order.

Simplifications.
* The tokens of the lexer have the numbers 0 (LANG_TK_EOF) to 66, in the order in which the table
  first names them; the left sides have the numbers from 100 on.
-/
namespace Verif.LangGram
open Verif.Pg

/-- `prod_tbl`, mln_lang_ast.c:419-532. -/
def grammar : List Rule := [
  ⟨100, [101, 0]⟩, -- 0 start: stm EOF
  ⟨101, [107, 101]⟩, -- 1 stm: blockstm stm
  ⟨101, [103, 101]⟩, -- 2 stm: funcdef stm
  ⟨101, [1, 2, 102, 3, 101]⟩, -- 3 stm: ID LBRACE setstm RBRACE stm
  ⟨101, [1, 4, 101]⟩, -- 4 stm: ID COLON stm
  ⟨101, [5, 6, 109, 7, 107, 101]⟩, -- 5 stm: WHILE LPAR exp RPAR blockstm stm
  ⟨101, [8, 6, 109, 9, 109, 9, 109, 7, 107, 101]⟩, -- 6 stm: FOR LPAR exp SEMIC exp SEMIC exp RPAR blockstm stm
  ⟨101, [10, 6, 109, 7, 2, 105, 3, 101]⟩, -- 7 stm: SWITCH LPAR exp RPAR LBRACE switchstm RBRACE stm
  ⟨101, []⟩, -- 8 stm:
  ⟨102, [1, 9, 102]⟩, -- 9 setstm: ID SEMIC setstm
  ⟨102, [103, 102]⟩, -- 10 setstm: funcdef setstm
  ⟨102, []⟩, -- 11 setstm:
  ⟨103, [11, 1, 6, 109, 7, 104, 2, 101, 3]⟩, -- 12 funcdef: AT ID LPAR exp RPAR use LBRACE stm RBRACE
  ⟨104, [12, 6, 109, 7]⟩, -- 13 use: DOLL LPAR exp RPAR
  ⟨104, []⟩, -- 14 use:
  ⟨105, [106, 4, 101, 105]⟩, -- 15 switchstm: switchprefix COLON stm switchstm
  ⟨105, []⟩, -- 16 switchstm:
  ⟨106, [13]⟩, -- 17 switchprefix: DEFAULT
  ⟨106, [14, 133]⟩, -- 18 switchprefix: CASE factor
  ⟨107, [109, 9]⟩, -- 19 blockstm: exp SEMIC
  ⟨107, [2, 101, 3]⟩, -- 20 blockstm: LBRACE stm RBRACE
  ⟨107, [15, 9]⟩, -- 21 blockstm: CONTINUE SEMIC
  ⟨107, [16, 9]⟩, -- 22 blockstm: BREAK SEMIC
  ⟨107, [17, 109, 9]⟩, -- 23 blockstm: RETURN exp SEMIC
  ⟨107, [18, 1, 9]⟩, -- 24 blockstm: GOTO ID SEMIC
  ⟨107, [19, 6, 109, 7, 107, 108]⟩, -- 25 blockstm: IF LPAR exp RPAR blockstm else_exp
  ⟨108, [20, 107]⟩, -- 26 else_exp: ELSE blockstm
  ⟨108, [21]⟩, -- 27 else_exp: FI
  ⟨109, [111, 110]⟩, -- 28 exp: assign_exp explist
  ⟨109, []⟩, -- 29 exp:
  ⟨110, [22, 109]⟩, -- 30 explist: COMMA exp
  ⟨110, []⟩, -- 31 explist:
  ⟨111, [113, 112]⟩, -- 32 assign_exp: logiclow_exp __assign_exp
  ⟨112, [23, 111]⟩, -- 33 __assign_exp: EQUAL assign_exp
  ⟨112, [24, 111]⟩, -- 34 __assign_exp: PLUSEQ assign_exp
  ⟨112, [25, 111]⟩, -- 35 __assign_exp: SUBEQ assign_exp
  ⟨112, [26, 111]⟩, -- 36 __assign_exp: LMOVEQ assign_exp
  ⟨112, [27, 111]⟩, -- 37 __assign_exp: RMOVEQ assign_exp
  ⟨112, [28, 111]⟩, -- 38 __assign_exp: MULEQ assign_exp
  ⟨112, [29, 111]⟩, -- 39 __assign_exp: DIVEQ assign_exp
  ⟨112, [30, 111]⟩, -- 40 __assign_exp: OREQ assign_exp
  ⟨112, [31, 111]⟩, -- 41 __assign_exp: ANDEQ assign_exp
  ⟨112, [32, 111]⟩, -- 42 __assign_exp: XOREQ assign_exp
  ⟨112, [33, 111]⟩, -- 43 __assign_exp: MODEQ assign_exp
  ⟨112, []⟩, -- 44 __assign_exp:
  ⟨113, [115, 114]⟩, -- 45 logiclow_exp: logichigh_exp __logiclow_exp
  ⟨114, [34, 113]⟩, -- 46 __logiclow_exp: LOWOR logiclow_exp
  ⟨114, [35, 113]⟩, -- 47 __logiclow_exp: LOWAND logiclow_exp
  ⟨114, []⟩, -- 48 __logiclow_exp:
  ⟨115, [117, 116]⟩, -- 49 logichigh_exp: relativelow_exp __logichigh_exp
  ⟨116, [36, 115]⟩, -- 50 __logichigh_exp: VERTL logichigh_exp
  ⟨116, [37, 115]⟩, -- 51 __logichigh_exp: AMP logichigh_exp
  ⟨116, [38, 115]⟩, -- 52 __logichigh_exp: XOR logichigh_exp
  ⟨116, []⟩, -- 53 __logichigh_exp:
  ⟨117, [119, 118]⟩, -- 54 relativelow_exp: relativehigh_exp __relativelow_exp
  ⟨118, [39, 117]⟩, -- 55 __relativelow_exp: DEQUAL relativelow_exp
  ⟨118, [40, 117]⟩, -- 56 __relativelow_exp: NONEQUAL relativelow_exp
  ⟨118, []⟩, -- 57 __relativelow_exp:
  ⟨119, [121, 120]⟩, -- 58 relativehigh_exp: move_exp __relativehigh_exp
  ⟨120, [41, 119]⟩, -- 59 __relativehigh_exp: LAGL relativehigh_exp
  ⟨120, [42, 119]⟩, -- 60 __relativehigh_exp: LESSEQ relativehigh_exp
  ⟨120, [43, 119]⟩, -- 61 __relativehigh_exp: RAGL relativehigh_exp
  ⟨120, [44, 119]⟩, -- 62 __relativehigh_exp: GREATEREQ relativehigh_exp
  ⟨120, []⟩, -- 63 __relativehigh_exp:
  ⟨121, [123, 122]⟩, -- 64 move_exp: addsub_exp __move_exp
  ⟨122, [45, 121]⟩, -- 65 __move_exp: LMOVE move_exp
  ⟨122, [46, 121]⟩, -- 66 __move_exp: RMOVE move_exp
  ⟨122, []⟩, -- 67 __move_exp:
  ⟨123, [125, 124]⟩, -- 68 addsub_exp: muldiv_exp __addsub_exp
  ⟨124, [47, 123]⟩, -- 69 __addsub_exp: PLUS addsub_exp
  ⟨124, [48, 123]⟩, -- 70 __addsub_exp: SUB addsub_exp
  ⟨124, []⟩, -- 71 __addsub_exp:
  ⟨125, [127, 126]⟩, -- 72 muldiv_exp: not_exp __muldiv_exp
  ⟨126, [49, 125]⟩, -- 73 __muldiv_exp: AST muldiv_exp
  ⟨126, [50, 125]⟩, -- 74 __muldiv_exp: SLASH muldiv_exp
  ⟨126, [51, 125]⟩, -- 75 __muldiv_exp: PERC muldiv_exp
  ⟨126, []⟩, -- 76 __muldiv_exp:
  ⟨127, [52, 127]⟩, -- 77 not_exp: EXCL not_exp
  ⟨127, [128]⟩, -- 78 not_exp: suffix_exp
  ⟨128, [130, 129]⟩, -- 79 suffix_exp: locate_exp __suffix_exp
  ⟨129, [53]⟩, -- 80 __suffix_exp: INC
  ⟨129, [54]⟩, -- 81 __suffix_exp: DECR
  ⟨129, []⟩, -- 82 __suffix_exp:
  ⟨130, [132, 131]⟩, -- 83 locate_exp: spec_exp __locate_exp
  ⟨131, [55, 109, 56, 131]⟩, -- 84 __locate_exp: LSQUAR exp RSQUAR __locate_exp
  ⟨131, [57, 1, 131]⟩, -- 85 __locate_exp: PERIOD ID __locate_exp
  ⟨131, [6, 109, 7, 131]⟩, -- 86 __locate_exp: LPAR exp RPAR __locate_exp
  ⟨131, []⟩, -- 87 __locate_exp:
  ⟨132, [48, 132]⟩, -- 88 spec_exp: SUB spec_exp
  ⟨132, [58, 132]⟩, -- 89 spec_exp: DASH spec_exp
  ⟨132, [37, 132]⟩, -- 90 spec_exp: AMP spec_exp
  ⟨132, [53, 132]⟩, -- 91 spec_exp: INC spec_exp
  ⟨132, [54, 132]⟩, -- 92 spec_exp: DECR spec_exp
  ⟨132, [12, 1]⟩, -- 93 spec_exp: DOLL ID
  ⟨132, [6, 109, 7]⟩, -- 94 spec_exp: LPAR exp RPAR
  ⟨132, [133]⟩, -- 95 spec_exp: factor
  ⟨133, [59]⟩, -- 96 factor: TRUE
  ⟨133, [60]⟩, -- 97 factor: FALSE
  ⟨133, [61]⟩, -- 98 factor: NIL
  ⟨133, [1]⟩, -- 99 factor: ID
  ⟨133, [62]⟩, -- 100 factor: OCT
  ⟨133, [63]⟩, -- 101 factor: DEC
  ⟨133, [64]⟩, -- 102 factor: HEX
  ⟨133, [65]⟩, -- 103 factor: REAL
  ⟨133, [66]⟩, -- 104 factor: STRING
  ⟨133, [55, 134, 56]⟩, -- 105 factor: LSQUAR elemlist RSQUAR
  ⟨134, [111, 135, 136]⟩, -- 106 elemlist: assign_exp elemval elemnext
  ⟨134, []⟩, -- 107 elemlist:
  ⟨135, [4, 111]⟩, -- 108 elemval: COLON assign_exp
  ⟨135, []⟩, -- 109 elemval:
  ⟨136, [22, 134]⟩, -- 110 elemnext: COMMA elemlist
  ⟨136, []⟩ -- 111 elemnext:
  ]

/-- LANG_TK_EOF. -/
def eof : Nat := 0

/-- `stm`, what a script is. -/
def stm : Nat := 101

/-- `exp`, an expression or a list of expressions. -/
def exp : Nat := 109

end Verif.LangGram

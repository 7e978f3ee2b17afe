import Verif.Basic

/-! The unrolled rounds of `sm3_block_data_order`, copied from the source text. -/
set_option autoImplicit false

namespace Verif.Model

/-- One source line `R1(...)`/`R2(...)` together with the `Wdd = EXPAND(...)` line following it, if any. Registers
`A .. H` are numbered 0 .. 7. -/
structure Sm3Instr where
  /-- `R2` instead of `R1` -/
  r2 : Bool
  /-- the eight register arguments -/
  regs : Vector (Fin 8) 8
  tj : BitVec 32
  wi : Fin 16
  /-- `Wj` argument: `W[wj1] ^ W[wj2]` -/
  wj1 : Fin 16
  wj2 : Fin 16
  /-- destination and the five arguments of `EXPAND` -/
  expand : Option (Vector (Fin 16) 6)
  deriving DecidableEq

/-- sm3.c lines 69-184. -/
def sm3Prog : List Sm3Instr := [
  ⟨false, #v[0, 1, 2, 3, 4, 5, 6, 7], 0x79CC4519, 0, 0, 4, some #v[0, 0, 7, 13, 3, 10]⟩,
  ⟨false, #v[3, 0, 1, 2, 7, 4, 5, 6], 0xF3988A32, 1, 1, 5, some #v[1, 1, 8, 14, 4, 11]⟩,
  ⟨false, #v[2, 3, 0, 1, 6, 7, 4, 5], 0xE7311465, 2, 2, 6, some #v[2, 2, 9, 15, 5, 12]⟩,
  ⟨false, #v[1, 2, 3, 0, 5, 6, 7, 4], 0xCE6228CB, 3, 3, 7, some #v[3, 3, 10, 0, 6, 13]⟩,
  ⟨false, #v[0, 1, 2, 3, 4, 5, 6, 7], 0x9CC45197, 4, 4, 8, some #v[4, 4, 11, 1, 7, 14]⟩,
  ⟨false, #v[3, 0, 1, 2, 7, 4, 5, 6], 0x3988A32F, 5, 5, 9, some #v[5, 5, 12, 2, 8, 15]⟩,
  ⟨false, #v[2, 3, 0, 1, 6, 7, 4, 5], 0x7311465E, 6, 6, 10, some #v[6, 6, 13, 3, 9, 0]⟩,
  ⟨false, #v[1, 2, 3, 0, 5, 6, 7, 4], 0xE6228CBC, 7, 7, 11, some #v[7, 7, 14, 4, 10, 1]⟩,
  ⟨false, #v[0, 1, 2, 3, 4, 5, 6, 7], 0xCC451979, 8, 8, 12, some #v[8, 8, 15, 5, 11, 2]⟩,
  ⟨false, #v[3, 0, 1, 2, 7, 4, 5, 6], 0x988A32F3, 9, 9, 13, some #v[9, 9, 0, 6, 12, 3]⟩,
  ⟨false, #v[2, 3, 0, 1, 6, 7, 4, 5], 0x311465E7, 10, 10, 14, some #v[10, 10, 1, 7, 13, 4]⟩,
  ⟨false, #v[1, 2, 3, 0, 5, 6, 7, 4], 0x6228CBCE, 11, 11, 15, some #v[11, 11, 2, 8, 14, 5]⟩,
  ⟨false, #v[0, 1, 2, 3, 4, 5, 6, 7], 0xC451979C, 12, 12, 0, some #v[12, 12, 3, 9, 15, 6]⟩,
  ⟨false, #v[3, 0, 1, 2, 7, 4, 5, 6], 0x88A32F39, 13, 13, 1, some #v[13, 13, 4, 10, 0, 7]⟩,
  ⟨false, #v[2, 3, 0, 1, 6, 7, 4, 5], 0x11465E73, 14, 14, 2, some #v[14, 14, 5, 11, 1, 8]⟩,
  ⟨false, #v[1, 2, 3, 0, 5, 6, 7, 4], 0x228CBCE6, 15, 15, 3, some #v[15, 15, 6, 12, 2, 9]⟩,
  ⟨true, #v[0, 1, 2, 3, 4, 5, 6, 7], 0x9D8A7A87, 0, 0, 4, some #v[0, 0, 7, 13, 3, 10]⟩,
  ⟨true, #v[3, 0, 1, 2, 7, 4, 5, 6], 0x3B14F50F, 1, 1, 5, some #v[1, 1, 8, 14, 4, 11]⟩,
  ⟨true, #v[2, 3, 0, 1, 6, 7, 4, 5], 0x7629EA1E, 2, 2, 6, some #v[2, 2, 9, 15, 5, 12]⟩,
  ⟨true, #v[1, 2, 3, 0, 5, 6, 7, 4], 0xEC53D43C, 3, 3, 7, some #v[3, 3, 10, 0, 6, 13]⟩,
  ⟨true, #v[0, 1, 2, 3, 4, 5, 6, 7], 0xD8A7A879, 4, 4, 8, some #v[4, 4, 11, 1, 7, 14]⟩,
  ⟨true, #v[3, 0, 1, 2, 7, 4, 5, 6], 0xB14F50F3, 5, 5, 9, some #v[5, 5, 12, 2, 8, 15]⟩,
  ⟨true, #v[2, 3, 0, 1, 6, 7, 4, 5], 0x629EA1E7, 6, 6, 10, some #v[6, 6, 13, 3, 9, 0]⟩,
  ⟨true, #v[1, 2, 3, 0, 5, 6, 7, 4], 0xC53D43CE, 7, 7, 11, some #v[7, 7, 14, 4, 10, 1]⟩,
  ⟨true, #v[0, 1, 2, 3, 4, 5, 6, 7], 0x8A7A879D, 8, 8, 12, some #v[8, 8, 15, 5, 11, 2]⟩,
  ⟨true, #v[3, 0, 1, 2, 7, 4, 5, 6], 0x14F50F3B, 9, 9, 13, some #v[9, 9, 0, 6, 12, 3]⟩,
  ⟨true, #v[2, 3, 0, 1, 6, 7, 4, 5], 0x29EA1E76, 10, 10, 14, some #v[10, 10, 1, 7, 13, 4]⟩,
  ⟨true, #v[1, 2, 3, 0, 5, 6, 7, 4], 0x53D43CEC, 11, 11, 15, some #v[11, 11, 2, 8, 14, 5]⟩,
  ⟨true, #v[0, 1, 2, 3, 4, 5, 6, 7], 0xA7A879D8, 12, 12, 0, some #v[12, 12, 3, 9, 15, 6]⟩,
  ⟨true, #v[3, 0, 1, 2, 7, 4, 5, 6], 0x4F50F3B1, 13, 13, 1, some #v[13, 13, 4, 10, 0, 7]⟩,
  ⟨true, #v[2, 3, 0, 1, 6, 7, 4, 5], 0x9EA1E762, 14, 14, 2, some #v[14, 14, 5, 11, 1, 8]⟩,
  ⟨true, #v[1, 2, 3, 0, 5, 6, 7, 4], 0x3D43CEC5, 15, 15, 3, some #v[15, 15, 6, 12, 2, 9]⟩,
  ⟨true, #v[0, 1, 2, 3, 4, 5, 6, 7], 0x7A879D8A, 0, 0, 4, some #v[0, 0, 7, 13, 3, 10]⟩,
  ⟨true, #v[3, 0, 1, 2, 7, 4, 5, 6], 0xF50F3B14, 1, 1, 5, some #v[1, 1, 8, 14, 4, 11]⟩,
  ⟨true, #v[2, 3, 0, 1, 6, 7, 4, 5], 0xEA1E7629, 2, 2, 6, some #v[2, 2, 9, 15, 5, 12]⟩,
  ⟨true, #v[1, 2, 3, 0, 5, 6, 7, 4], 0xD43CEC53, 3, 3, 7, some #v[3, 3, 10, 0, 6, 13]⟩,
  ⟨true, #v[0, 1, 2, 3, 4, 5, 6, 7], 0xA879D8A7, 4, 4, 8, some #v[4, 4, 11, 1, 7, 14]⟩,
  ⟨true, #v[3, 0, 1, 2, 7, 4, 5, 6], 0x50F3B14F, 5, 5, 9, some #v[5, 5, 12, 2, 8, 15]⟩,
  ⟨true, #v[2, 3, 0, 1, 6, 7, 4, 5], 0xA1E7629E, 6, 6, 10, some #v[6, 6, 13, 3, 9, 0]⟩,
  ⟨true, #v[1, 2, 3, 0, 5, 6, 7, 4], 0x43CEC53D, 7, 7, 11, some #v[7, 7, 14, 4, 10, 1]⟩,
  ⟨true, #v[0, 1, 2, 3, 4, 5, 6, 7], 0x879D8A7A, 8, 8, 12, some #v[8, 8, 15, 5, 11, 2]⟩,
  ⟨true, #v[3, 0, 1, 2, 7, 4, 5, 6], 0x0F3B14F5, 9, 9, 13, some #v[9, 9, 0, 6, 12, 3]⟩,
  ⟨true, #v[2, 3, 0, 1, 6, 7, 4, 5], 0x1E7629EA, 10, 10, 14, some #v[10, 10, 1, 7, 13, 4]⟩,
  ⟨true, #v[1, 2, 3, 0, 5, 6, 7, 4], 0x3CEC53D4, 11, 11, 15, some #v[11, 11, 2, 8, 14, 5]⟩,
  ⟨true, #v[0, 1, 2, 3, 4, 5, 6, 7], 0x79D8A7A8, 12, 12, 0, some #v[12, 12, 3, 9, 15, 6]⟩,
  ⟨true, #v[3, 0, 1, 2, 7, 4, 5, 6], 0xF3B14F50, 13, 13, 1, some #v[13, 13, 4, 10, 0, 7]⟩,
  ⟨true, #v[2, 3, 0, 1, 6, 7, 4, 5], 0xE7629EA1, 14, 14, 2, some #v[14, 14, 5, 11, 1, 8]⟩,
  ⟨true, #v[1, 2, 3, 0, 5, 6, 7, 4], 0xCEC53D43, 15, 15, 3, some #v[15, 15, 6, 12, 2, 9]⟩,
  ⟨true, #v[0, 1, 2, 3, 4, 5, 6, 7], 0x9D8A7A87, 0, 0, 4, some #v[0, 0, 7, 13, 3, 10]⟩,
  ⟨true, #v[3, 0, 1, 2, 7, 4, 5, 6], 0x3B14F50F, 1, 1, 5, some #v[1, 1, 8, 14, 4, 11]⟩,
  ⟨true, #v[2, 3, 0, 1, 6, 7, 4, 5], 0x7629EA1E, 2, 2, 6, some #v[2, 2, 9, 15, 5, 12]⟩,
  ⟨true, #v[1, 2, 3, 0, 5, 6, 7, 4], 0xEC53D43C, 3, 3, 7, some #v[3, 3, 10, 0, 6, 13]⟩,
  ⟨true, #v[0, 1, 2, 3, 4, 5, 6, 7], 0xD8A7A879, 4, 4, 8, none⟩,
  ⟨true, #v[3, 0, 1, 2, 7, 4, 5, 6], 0xB14F50F3, 5, 5, 9, none⟩,
  ⟨true, #v[2, 3, 0, 1, 6, 7, 4, 5], 0x629EA1E7, 6, 6, 10, none⟩,
  ⟨true, #v[1, 2, 3, 0, 5, 6, 7, 4], 0xC53D43CE, 7, 7, 11, none⟩,
  ⟨true, #v[0, 1, 2, 3, 4, 5, 6, 7], 0x8A7A879D, 8, 8, 12, none⟩,
  ⟨true, #v[3, 0, 1, 2, 7, 4, 5, 6], 0x14F50F3B, 9, 9, 13, none⟩,
  ⟨true, #v[2, 3, 0, 1, 6, 7, 4, 5], 0x29EA1E76, 10, 10, 14, none⟩,
  ⟨true, #v[1, 2, 3, 0, 5, 6, 7, 4], 0x53D43CEC, 11, 11, 15, none⟩,
  ⟨true, #v[0, 1, 2, 3, 4, 5, 6, 7], 0xA7A879D8, 12, 12, 0, none⟩,
  ⟨true, #v[3, 0, 1, 2, 7, 4, 5, 6], 0x4F50F3B1, 13, 13, 1, none⟩,
  ⟨true, #v[2, 3, 0, 1, 6, 7, 4, 5], 0x9EA1E762, 14, 14, 2, none⟩,
  ⟨true, #v[1, 2, 3, 0, 5, 6, 7, 4], 0x3D43CEC5, 15, 15, 3, none⟩]

end Verif.Model

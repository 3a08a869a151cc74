import Verif.Tactics

/-!
# Tables of the HT block encoder

Generated from the C++ tables, entry for entry, in rows of sixteen.
-/

namespace Verif.Ht

/-- `enc_CxtVLC_table0` (source/core/coding/enc_CxtVLC_tables.hpp 32-190). -/
def encVlc0 : List (List Nat) := [
  [0, 0, 0, 0, 0, 0, 0, 0, 0, 0, 0, 0, 0, 0, 0, 0],
  [0x340, 0x1FF1, 0, 0, 0, 0, 0, 0, 0, 0, 0, 0, 0, 0, 0, 0],
  [0x30, 0, 0x3FF2, 0, 0, 0, 0, 0, 0, 0, 0, 0, 0, 0, 0, 0],
  [0x8D0, 0xFF3, 0x2FF2, 0x2FF2, 0, 0, 0, 0, 0, 0, 0, 0, 0, 0, 0, 0],
  [0x130, 0, 0, 0, 0x9E4, 0, 0, 0, 0, 0, 0, 0, 0, 0, 0, 0],
  [0x750, 0x7F5, 0, 0, 0x11E4, 0x11E4, 0, 0, 0, 0, 0, 0, 0, 0, 0, 0],
  [0x1E0, 0, 0x37F0, 0, 0x37F0, 0, 0x37F0, 0, 0, 0, 0, 0, 0, 0, 0, 0],
  [0x17F0, 0x6E2, 0x27F2, 0x27F2, 0x6E2, 0x6E2, 0x27F2, 0x27F2, 0, 0, 0, 0, 0, 0, 0, 0],
  [0x230, 0, 0, 0, 0, 0, 0, 0, 0x1EE8, 0, 0, 0, 0, 0, 0, 0],
  [0xEE0, 0x16E0, 0, 0, 0, 0, 0, 0, 0x16E0, 0x16E0, 0, 0, 0, 0, 0, 0],
  [0xD0, 0, 0x3BFA, 0, 0, 0, 0, 0, 0x1AE8, 0, 0x1AE8, 0, 0, 0, 0, 0],
  [0x1BF0, 0x2BF1, 0x4E1, 0x2BF1, 0, 0, 0, 0, 0x4E1, 0x2BF1, 0x4E1, 0x2BF1, 0, 0, 0, 0],
  [0xF50, 0, 0, 0, 0xAEC, 0, 0, 0, 0x12EC, 0, 0, 0, 0xBFC, 0, 0, 0],
  [0x33F0, 0x13F1, 0, 0, 0x23F5, 0x13F1, 0, 0, 0x3FD, 0x13F1, 0, 0, 0x23F5, 0x13F1, 0, 0],
  [0x3DF0, 0, 0x25F2, 0, 0x1DFE, 0, 0x25F2, 0, 0x2EA, 0, 0x25F2, 0, 0x2EA, 0, 0x25F2, 0],
  [0x2DF0, 0x19FF, 0xCEE, 0xCEE, 0x14EF, 0x5FF, 0x39FE, 0x39FE, 0x1CEF, 0xDF9, 0x35FB, 0xDF9, 0x15FF, 0xDF9, 0x35FB, 0xDF9],
  [0x20, 0, 0, 0, 0, 0, 0, 0, 0, 0, 0, 0, 0, 0, 0, 0],
  [0x740, 0xFF1, 0, 0, 0, 0, 0, 0, 0, 0, 0, 0, 0, 0, 0, 0],
  [0x340, 0, 0x1DE2, 0, 0, 0, 0, 0, 0, 0, 0, 0, 0, 0, 0, 0],
  [0xDE0, 0x1EE0, 0x1EE0, 0x1EE0, 0, 0, 0, 0, 0, 0, 0, 0, 0, 0, 0, 0],
  [0x540, 0, 0, 0, 0x15E4, 0, 0, 0, 0, 0, 0, 0, 0, 0, 0, 0],
  [0x5E0, 0x3FF5, 0, 0, 0x19E4, 0x19E4, 0, 0, 0, 0, 0, 0, 0, 0, 0, 0],
  [0x9E0, 0, 0x11E0, 0, 0x11E0, 0, 0x11E0, 0, 0, 0, 0, 0, 0, 0, 0, 0],
  [0x1FF0, 0x1E2, 0x2FF2, 0x2FF2, 0x1E2, 0x1E2, 0x2FF2, 0x2FF2, 0, 0, 0, 0, 0, 0, 0, 0],
  [0x140, 0, 0, 0, 0, 0, 0, 0, 0xEE8, 0, 0, 0, 0, 0, 0, 0],
  [0x16E0, 0x6E0, 0, 0, 0, 0, 0, 0, 0x6E0, 0x6E0, 0, 0, 0, 0, 0, 0],
  [0x1AE0, 0, 0x37FA, 0, 0, 0, 0, 0, 0xAE8, 0, 0xAE8, 0, 0, 0, 0, 0],
  [0x17F0, 0x27F1, 0x8E1, 0x27F1, 0, 0, 0, 0, 0x8E1, 0x27F1, 0x8E1, 0x27F1, 0, 0, 0, 0],
  [0xD0, 0, 0, 0, 0x2EC, 0, 0, 0, 0x12E8, 0, 0, 0, 0x12E8, 0, 0, 0],
  [0x7F0, 0xBF1, 0, 0, 0x1CE5, 0xBF1, 0, 0, 0x3BFD, 0xBF1, 0, 0, 0x1CE5, 0xBF1, 0, 0],
  [0x1BF0, 0, 0x2BF2, 0, 0x33FE, 0, 0x2BF2, 0, 0xCEA, 0, 0x2BF2, 0, 0xCEA, 0, 0x2BF2, 0],
  [0x3F0, 0x23FF, 0x4EA, 0x4EA, 0x18EE, 0x18EE, 0x4EA, 0x4EA, 0x14EB, 0x13F8, 0x13F8, 0x13F8, 0x14EB, 0x13F8, 0x13F8, 0x13F8],
  [0x20, 0, 0, 0, 0, 0, 0, 0, 0, 0, 0, 0, 0, 0, 0, 0],
  [0x740, 0xDE1, 0, 0, 0, 0, 0, 0, 0, 0, 0, 0, 0, 0, 0, 0],
  [0x340, 0, 0x1FF2, 0, 0, 0, 0, 0, 0, 0, 0, 0, 0, 0, 0, 0],
  [0x15E0, 0x19E1, 0x3FF3, 0x19E1, 0, 0, 0, 0, 0, 0, 0, 0, 0, 0, 0, 0],
  [0x540, 0, 0, 0, 0x5E4, 0, 0, 0, 0, 0, 0, 0, 0, 0, 0, 0],
  [0xD0, 0x9E5, 0, 0, 0x11E5, 0x17F5, 0, 0, 0, 0, 0, 0, 0, 0, 0, 0],
  [0x1E0, 0, 0x2FF0, 0, 0x2FF0, 0, 0x2FF0, 0, 0, 0, 0, 0, 0, 0, 0, 0],
  [0xFF0, 0x8E3, 0x37F2, 0x37F2, 0x1BF7, 0x8E3, 0x37F2, 0x37F2, 0, 0, 0, 0, 0, 0, 0, 0],
  [0x140, 0, 0, 0, 0, 0, 0, 0, 0x27F8, 0, 0, 0, 0, 0, 0, 0],
  [0x1EE0, 0xEE0, 0, 0, 0, 0, 0, 0, 0xEE0, 0xEE0, 0, 0, 0, 0, 0, 0],
  [0x16E0, 0, 0x6E0, 0, 0, 0, 0, 0, 0x6E0, 0, 0x6E0, 0, 0, 0, 0, 0],
  [0x7F0, 0x1AE2, 0x3BF2, 0x3BF2, 0, 0, 0, 0, 0x1AE2, 0x1AE2, 0x3BF2, 0x3BF2, 0, 0, 0, 0],
  [0xAE0, 0, 0, 0, 0x12E4, 0, 0, 0, 0x2BFC, 0, 0, 0, 0x12E4, 0, 0, 0],
  [0xBF0, 0x33FD, 0, 0, 0x1CEC, 0x1CEC, 0, 0, 0x2E8, 0x2E8, 0, 0, 0x2E8, 0x2E8, 0, 0],
  [0x13F0, 0, 0x3DF2, 0, 0xCE2, 0, 0x3DF2, 0, 0xCE2, 0, 0x3DF2, 0, 0xCE2, 0, 0x3DF2, 0],
  [0x23F0, 0x14EF, 0x3F3, 0x4E1, 0x18E7, 0x4E1, 0x3F3, 0x4E1, 0x1DFF, 0x4E1, 0x3F3, 0x4E1, 0x18E7, 0x4E1, 0x3F3, 0x4E1],
  [0x30, 0, 0, 0, 0, 0, 0, 0, 0, 0, 0, 0, 0, 0, 0, 0],
  [0x240, 0x1EE1, 0, 0, 0, 0, 0, 0, 0, 0, 0, 0, 0, 0, 0, 0],
  [0x650, 0, 0x27F2, 0, 0, 0, 0, 0, 0, 0, 0, 0, 0, 0, 0, 0],
  [0xEE0, 0x2E1, 0x3FF3, 0x2E1, 0, 0, 0, 0, 0, 0, 0, 0, 0, 0, 0, 0],
  [0xB50, 0, 0, 0, 0x16E4, 0, 0, 0, 0, 0, 0, 0, 0, 0, 0, 0],
  [0x350, 0x6E5, 0, 0, 0x1AE5, 0xD55, 0, 0, 0, 0, 0, 0, 0, 0, 0, 0],
  [0x1FF0, 0, 0xFF6, 0, 0x2FF4, 0, 0x2FF4, 0, 0, 0, 0, 0, 0, 0, 0, 0],
  [0x37F0, 0x12E7, 0x7F7, 0x3BF7, 0xAE6, 0xAE6, 0x17F6, 0x17F6, 0, 0, 0, 0, 0, 0, 0, 0],
  [0x550, 0, 0, 0, 0, 0, 0, 0, 0x3F8, 0, 0, 0, 0, 0, 0, 0],
  [0x1CE0, 0x1BF1, 0, 0, 0, 0, 0, 0, 0x2BF9, 0x1BF1, 0, 0, 0, 0, 0, 0],
  [0xCE0, 0, 0xBFA, 0, 0, 0, 0, 0, 0x14E8, 0, 0x14E8, 0, 0, 0, 0, 0],
  [0x33F0, 0x13FB, 0x4E3, 0x23F1, 0, 0, 0, 0, 0x3DFB, 0x23F1, 0x4E3, 0x23F1, 0, 0, 0, 0],
  [0x18E0, 0, 0, 0, 0x8E4, 0, 0, 0, 0x1DFC, 0, 0, 0, 0x8E4, 0, 0, 0],
  [0x2DF0, 0x10ED, 0, 0, 0xED, 0x15FD, 0, 0, 0x25FD, 0xDF9, 0, 0, 0x35FD, 0xDF9, 0, 0],
  [0x5F0, 0, 0x19FE, 0, 0x39FE, 0, 0x9F4, 0, 0x1F6C, 0, 0x1F6C, 0, 0x9F4, 0, 0x9F4, 0],
  [0x29F0, 0xE5F, 0x176F, 0x21FF, 0x15F, 0xF6F, 0x11FE, 0x11FE, 0x95F, 0x31FB, 0x76A, 0x76A, 0x1FF, 0x31FB, 0x76A, 0x76A],
  [0x20, 0, 0, 0, 0, 0, 0, 0, 0, 0, 0, 0, 0, 0, 0, 0],
  [0x740, 0x1FF1, 0, 0, 0, 0, 0, 0, 0, 0, 0, 0, 0, 0, 0, 0],
  [0x340, 0, 0xDE2, 0, 0, 0, 0, 0, 0, 0, 0, 0, 0, 0, 0, 0],
  [0x15E0, 0x3FF3, 0x1EE2, 0x1EE2, 0, 0, 0, 0, 0, 0, 0, 0, 0, 0, 0, 0],
  [0x540, 0, 0, 0, 0x2FF4, 0, 0, 0, 0, 0, 0, 0, 0, 0, 0, 0],
  [0x5E0, 0x19E0, 0, 0, 0x19E0, 0x19E0, 0, 0, 0, 0, 0, 0, 0, 0, 0, 0],
  [0x9E0, 0, 0x11E0, 0, 0x11E0, 0, 0x11E0, 0, 0, 0, 0, 0, 0, 0, 0, 0],
  [0xFF0, 0x1E4, 0x1E4, 0x1E4, 0x37F4, 0x37F4, 0x37F4, 0x37F4, 0, 0, 0, 0, 0, 0, 0, 0],
  [0x140, 0, 0, 0, 0, 0, 0, 0, 0xEE8, 0, 0, 0, 0, 0, 0, 0],
  [0x8E0, 0x3BF0, 0, 0, 0, 0, 0, 0, 0x3BF0, 0x3BF0, 0, 0, 0, 0, 0, 0],
  [0xD0, 0, 0x16EA, 0, 0, 0, 0, 0, 0x6EA, 0, 0x17FA, 0, 0, 0, 0, 0],
  [0x27F0, 0x1AE0, 0x7FB, 0x1AE0, 0, 0, 0, 0, 0x1AE0, 0x1AE0, 0x1AE0, 0x1AE0, 0, 0, 0, 0],
  [0xAE0, 0, 0, 0, 0x1BFC, 0, 0, 0, 0x12E8, 0, 0, 0, 0x12E8, 0, 0, 0],
  [0x2BF0, 0x3F1, 0, 0, 0x2E1, 0x3F1, 0, 0, 0x2E1, 0x3F1, 0, 0, 0x2E1, 0x3F1, 0, 0],
  [0xBF0, 0, 0x33FE, 0, 0x1CE4, 0, 0x1CE4, 0, 0xCEC, 0, 0xCEC, 0, 0x1CE4, 0, 0x1CE4, 0],
  [0x13F0, 0x14E9, 0x4E7, 0x14E9, 0x1DFF, 0x14E9, 0x3DF7, 0x14E9, 0x18EB, 0x23F9, 0x4E7, 0x23F9, 0x18EB, 0x23F9, 0x3DF7, 0x23F9],
  [0x30, 0, 0, 0, 0, 0, 0, 0, 0, 0, 0, 0, 0, 0, 0, 0],
  [0xD50, 0x3FF1, 0, 0, 0, 0, 0, 0, 0, 0, 0, 0, 0, 0, 0, 0],
  [0x550, 0, 0xEE2, 0, 0, 0, 0, 0, 0, 0, 0, 0, 0, 0, 0, 0],
  [0x16E0, 0x1FF3, 0x1CE3, 0x2FF3, 0, 0, 0, 0, 0, 0, 0, 0, 0, 0, 0, 0],
  [0x950, 0, 0, 0, 0xFF4, 0, 0, 0, 0, 0, 0, 0, 0, 0, 0, 0],
  [0x6E0, 0x37F5, 0, 0, 0x1AE4, 0x1AE4, 0, 0, 0, 0, 0, 0, 0, 0, 0, 0],
  [0xAE0, 0, 0x12E2, 0, 0x17F6, 0, 0x12E2, 0, 0, 0, 0, 0, 0, 0, 0, 0],
  [0x27F0, 0x1BF7, 0x3BF7, 0x7F7, 0x2E6, 0x2E6, 0x2BF6, 0x2BF6, 0, 0, 0, 0, 0, 0, 0, 0],
  [0x150, 0, 0, 0, 0, 0, 0, 0, 0xCE8, 0, 0, 0, 0, 0, 0, 0],
  [0x1360, 0x33F9, 0, 0, 0, 0, 0, 0, 0xBF8, 0xBF8, 0, 0, 0, 0, 0, 0],
  [0xE50, 0, 0x4EA, 0, 0, 0, 0, 0, 0x18EA, 0, 0x14EA, 0, 0, 0, 0, 0],
  [0x13F0, 0x3DFB, 0x10EB, 0x23FB, 0, 0, 0, 0, 0x8E9, 0x3F9, 0x8E9, 0x3F9, 0, 0, 0, 0],
  [0xE0, 0, 0, 0, 0x1DFC, 0, 0, 0, 0x1F68, 0, 0, 0, 0x1F68, 0, 0, 0],
  [0x2DF0, 0x15FD, 0, 0, 0x176D, 0xDFD, 0, 0, 0xF69, 0x35F9, 0, 0, 0xF69, 0x35F9, 0, 0],
  [0x25F0, 0, 0x76E, 0, 0x29FE, 0, 0x5F6, 0, 0x1B6E, 0, 0x19FE, 0, 0x39FE, 0, 0x5F6, 0],
  [0x9F0, 0x36F, 0x25F, 0x3EFF, 0x65F, 0x31F7, 0xB67, 0x21F7, 0xA5F, 0x1FD, 0x1EFF, 0x1FD, 0x11FF, 0x31F7, 0xB67, 0x21F7],
  [0x30, 0, 0, 0, 0, 0, 0, 0, 0, 0, 0, 0, 0, 0, 0, 0],
  [0x240, 0x1E1, 0, 0, 0, 0, 0, 0, 0, 0, 0, 0, 0, 0, 0, 0],
  [0x650, 0, 0x6E2, 0, 0, 0, 0, 0, 0, 0, 0, 0, 0, 0, 0, 0],
  [0xD50, 0xEE3, 0x16E3, 0x1EE3, 0, 0, 0, 0, 0, 0, 0, 0, 0, 0, 0, 0],
  [0x550, 0, 0, 0, 0x1FF4, 0, 0, 0, 0, 0, 0, 0, 0, 0, 0, 0],
  [0x1AE0, 0xAE1, 0, 0, 0x3FF5, 0xAE1, 0, 0, 0, 0, 0, 0, 0, 0, 0, 0],
  [0x12E0, 0, 0x2FF2, 0, 0xFF6, 0, 0x2FF2, 0, 0, 0, 0, 0, 0, 0, 0, 0],
  [0x37F0, 0x1B67, 0x3BF7, 0x17F7, 0x2E6, 0x2E6, 0x27F6, 0x27F6, 0, 0, 0, 0, 0, 0, 0, 0],
  [0x950, 0, 0, 0, 0, 0, 0, 0, 0x7F8, 0, 0, 0, 0, 0, 0, 0],
  [0x1CE0, 0x1BF1, 0, 0, 0, 0, 0, 0, 0x2BF9, 0x1BF1, 0, 0, 0, 0, 0, 0],
  [0xCE0, 0, 0x14E2, 0, 0, 0, 0, 0, 0xBFA, 0, 0x14E2, 0, 0, 0, 0, 0],
  [0x33F0, 0x4E9, 0x18EB, 0x4E9, 0, 0, 0, 0, 0x3DFB, 0x23F9, 0x13FB, 0x23F9, 0, 0, 0, 0],
  [0x8E0, 0, 0, 0, 0x1DFC, 0, 0, 0, 0x10EC, 0, 0, 0, 0x3FC, 0, 0, 0],
  [0x2DF0, 0x35FD, 0, 0, 0xE5, 0x19F5, 0, 0, 0xDFC, 0xDFC, 0, 0, 0xE5, 0x19F5, 0, 0],
  [0x15F0, 0, 0x25FE, 0, 0x29FE, 0, 0x5F2, 0, 0x1F6E, 0, 0x5F2, 0, 0x39FE, 0, 0x5F2, 0],
  [0x9F0, 0xE5F, 0x15F, 0x76F, 0x136F, 0x11FF, 0xF66, 0xF66, 0x36F, 0x31FB, 0x176E, 0x176E, 0xB6F, 0x31FB, 0xF66, 0xF66],
  [0x950, 0, 0, 0, 0, 0, 0, 0, 0, 0, 0, 0, 0, 0, 0, 0],
  [0x2E0, 0x3FF1, 0, 0, 0, 0, 0, 0, 0, 0, 0, 0, 0, 0, 0, 0],
  [0x1CE0, 0, 0x1FF2, 0, 0, 0, 0, 0, 0, 0, 0, 0, 0, 0, 0, 0],
  [0x2FF0, 0x17F3, 0x37F3, 0xFF3, 0, 0, 0, 0, 0, 0, 0, 0, 0, 0, 0, 0],
  [0x27F0, 0, 0, 0, 0x7F4, 0, 0, 0, 0, 0, 0, 0, 0, 0, 0, 0],
  [0x2BF0, 0xCE1, 0, 0, 0x3BF5, 0xCE1, 0, 0, 0, 0, 0, 0, 0, 0, 0, 0],
  [0x1BF0, 0, 0x14E0, 0, 0x14E0, 0, 0x14E0, 0, 0, 0, 0, 0, 0, 0, 0, 0],
  [0xBF0, 0x4E7, 0x23F7, 0x13F7, 0x3F7, 0xDF7, 0x33F6, 0x33F6, 0, 0, 0, 0, 0, 0, 0, 0],
  [0x3DF0, 0, 0, 0, 0, 0, 0, 0, 0x1DF8, 0, 0, 0, 0, 0, 0, 0],
  [0x2DF0, 0x18E0, 0, 0, 0, 0, 0, 0, 0x18E0, 0x18E0, 0, 0, 0, 0, 0, 0],
  [0x29F0, 0, 0x8E2, 0, 0, 0, 0, 0, 0x35FA, 0, 0x8E2, 0, 0, 0, 0, 0],
  [0x15F0, 0x39FB, 0x10EB, 0x5FB, 0, 0, 0, 0, 0x9FB, 0x25F9, 0x19FB, 0x25F9, 0, 0, 0, 0],
  [0x31F0, 0, 0, 0, 0x21FC, 0, 0, 0, 0x11F8, 0, 0, 0, 0x11F8, 0, 0, 0],
  [0x1F0, 0xED, 0, 0, 0x1F6D, 0x2EFD, 0, 0, 0xEFD, 0x3EF9, 0, 0, 0x1EFD, 0x3EF9, 0, 0],
  [0x36F0, 0, 0xF6E, 0, 0x3AFE, 0, 0x16F6, 0, 0x76E, 0, 0x6FE, 0, 0x26FE, 0, 0x16F6, 0],
  [0xAF0, 0x4F, 0x64F, 0x55F, 0x44F, 0xD5F, 0x1B6F, 0x2AFF, 0x24F, 0x176F, 0x15F, 0x12FF, 0xB6F, 0x1AFF, 0x32FF, 0x35F]]

/-- `enc_CxtVLC_table1` (source/core/coding/enc_CxtVLC_tables.hpp 192-350). -/
def encVlc1 : List (List Nat) := [
  [0, 0, 0, 0, 0, 0, 0, 0, 0, 0, 0, 0, 0, 0, 0, 0],
  [0x30, 0x13E1, 0, 0, 0, 0, 0, 0, 0, 0, 0, 0, 0, 0, 0, 0],
  [0x330, 0, 0xBE2, 0, 0, 0, 0, 0, 0, 0, 0, 0, 0, 0, 0, 0],
  [0x6D0, 0x1DE0, 0x1DE0, 0x1DE0, 0, 0, 0, 0, 0, 0, 0, 0, 0, 0, 0, 0],
  [0x130, 0, 0, 0, 0x3E4, 0, 0, 0, 0, 0, 0, 0, 0, 0, 0, 0],
  [0xAD0, 0x15E0, 0, 0, 0x15E0, 0x15E0, 0, 0, 0, 0, 0, 0, 0, 0, 0, 0],
  [0xD0, 0, 0x3FF0, 0, 0x3FF0, 0, 0x3FF0, 0, 0, 0, 0, 0, 0, 0, 0, 0],
  [0xFF0, 0xDE0, 0xDE0, 0xDE0, 0xDE0, 0xDE0, 0xDE0, 0xDE0, 0, 0, 0, 0, 0, 0, 0, 0],
  [0x230, 0, 0, 0, 0, 0, 0, 0, 0x2D8, 0, 0, 0, 0, 0, 0, 0],
  [0xCD0, 0x9E0, 0, 0, 0, 0, 0, 0, 0x9E0, 0x9E0, 0, 0, 0, 0, 0, 0],
  [0x4D0, 0, 0x1FFA, 0, 0, 0, 0, 0, 0x5E8, 0, 0x5E8, 0, 0, 0, 0, 0],
  [0x2FF0, 0x19E0, 0x19E0, 0x19E0, 0, 0, 0, 0, 0x19E0, 0x19E0, 0x19E0, 0x19E0, 0, 0, 0, 0],
  [0x8D0, 0, 0, 0, 0x37FC, 0, 0, 0, 0x11E8, 0, 0, 0, 0x11E8, 0, 0, 0],
  [0x7F0, 0x1E0, 0, 0, 0x1E0, 0x1E0, 0, 0, 0x1E0, 0x1E0, 0, 0, 0x1E0, 0x1E0, 0, 0],
  [0x17F0, 0, 0x1EE4, 0, 0x27F4, 0, 0x27F4, 0, 0x1EE4, 0, 0x1EE4, 0, 0x27F4, 0, 0x27F4, 0],
  [0x3BF0, 0x1BF1, 0xEE1, 0x1BF1, 0xEE1, 0x1BF1, 0xEE1, 0x1BF1, 0xEE1, 0x1BF1, 0xEE1, 0x1BF1, 0xEE1, 0x1BF1, 0xEE1, 0x1BF1],
  [0x10, 0, 0, 0, 0, 0, 0, 0, 0, 0, 0, 0, 0, 0, 0, 0],
  [0x2C0, 0x3FF1, 0, 0, 0, 0, 0, 0, 0, 0, 0, 0, 0, 0, 0, 0],
  [0x4C0, 0, 0xFF2, 0, 0, 0, 0, 0, 0, 0, 0, 0, 0, 0, 0, 0],
  [0xED0, 0x1FF1, 0x2FF3, 0x1FF1, 0, 0, 0, 0, 0, 0, 0, 0, 0, 0, 0, 0],
  [0x6D0, 0, 0, 0, 0x1BF4, 0, 0, 0, 0, 0, 0, 0, 0, 0, 0, 0],
  [0x1E0, 0x37F0, 0, 0, 0x37F0, 0x37F0, 0, 0, 0, 0, 0, 0, 0, 0, 0, 0],
  [0x17F0, 0, 0x27F0, 0, 0x27F0, 0, 0x27F0, 0, 0, 0, 0, 0, 0, 0, 0, 0],
  [0x7F0, 0x3BF0, 0x3BF0, 0x3BF0, 0x3BF0, 0x3BF0, 0x3BF0, 0x3BF0, 0, 0, 0, 0, 0, 0, 0, 0],
  [0xC0, 0, 0, 0, 0, 0, 0, 0, 0xBF8, 0, 0, 0, 0, 0, 0, 0],
  [0x5E0, 0x2BF0, 0, 0, 0, 0, 0, 0, 0x2BF0, 0x2BF0, 0, 0, 0, 0, 0, 0],
  [0x19E0, 0, 0x33F0, 0, 0, 0, 0, 0, 0x33F0, 0, 0x33F0, 0, 0, 0, 0, 0],
  [0x13F0, 0x15F0, 0x15F0, 0x15F0, 0, 0, 0, 0, 0x15F0, 0x15F0, 0x15F0, 0x15F0, 0, 0, 0, 0],
  [0x9E0, 0, 0, 0, 0x23F0, 0, 0, 0, 0x23F0, 0, 0, 0, 0x23F0, 0, 0, 0],
  [0x3F0, 0x3DF0, 0, 0, 0x3DF0, 0x3DF0, 0, 0, 0x3DF0, 0x3DF0, 0, 0, 0x3DF0, 0x3DF0, 0, 0],
  [0x1DF0, 0, 0x2DF0, 0, 0x2DF0, 0, 0x2DF0, 0, 0x2DF0, 0, 0x2DF0, 0, 0x2DF0, 0, 0x2DF0, 0],
  [0xDF0, 0x11E4, 0x11E4, 0x11E4, 0x35F4, 0x35F4, 0x35F4, 0x35F4, 0x11E4, 0x11E4, 0x11E4, 0x11E4, 0x35F4, 0x35F4, 0x35F4, 0x35F4],
  [0x10, 0, 0, 0, 0, 0, 0, 0, 0, 0, 0, 0, 0, 0, 0, 0],
  [0x4C0, 0x3FF1, 0, 0, 0, 0, 0, 0, 0, 0, 0, 0, 0, 0, 0, 0],
  [0xC0, 0, 0x11E2, 0, 0, 0, 0, 0, 0, 0, 0, 0, 0, 0, 0, 0],
  [0x1EE0, 0xFF3, 0x1FF2, 0x1FF2, 0, 0, 0, 0, 0, 0, 0, 0, 0, 0, 0, 0],
  [0xAD0, 0, 0, 0, 0x2FF4, 0, 0, 0, 0, 0, 0, 0, 0, 0, 0, 0],
  [0x1E0, 0x37F0, 0, 0, 0x37F0, 0x37F0, 0, 0, 0, 0, 0, 0, 0, 0, 0, 0],
  [0x17F0, 0, 0x27F0, 0, 0x27F0, 0, 0x27F0, 0, 0, 0, 0, 0, 0, 0, 0, 0],
  [0x7F0, 0xBF0, 0xBF0, 0xBF0, 0xBF0, 0xBF0, 0xBF0, 0xBF0, 0, 0, 0, 0, 0, 0, 0, 0],
  [0x2D0, 0, 0, 0, 0, 0, 0, 0, 0x3BF8, 0, 0, 0, 0, 0, 0, 0],
  [0x1BF0, 0x2BF0, 0, 0, 0, 0, 0, 0, 0x2BF0, 0x2BF0, 0, 0, 0, 0, 0, 0],
  [0xEE0, 0, 0x16EA, 0, 0, 0, 0, 0, 0x33FA, 0, 0x3DFA, 0, 0, 0, 0, 0],
  [0x13F0, 0x3F0, 0x23FB, 0x3F0, 0, 0, 0, 0, 0x3F0, 0x3F0, 0x3F0, 0x3F0, 0, 0, 0, 0],
  [0x6E0, 0, 0, 0, 0x1DF0, 0, 0, 0, 0x1DF0, 0, 0, 0, 0x1DF0, 0, 0, 0],
  [0x2DF0, 0xDF0, 0, 0, 0xDF0, 0xDF0, 0, 0, 0xDF0, 0xDF0, 0, 0, 0xDF0, 0xDF0, 0, 0],
  [0x35F0, 0, 0x25F4, 0, 0x15F4, 0, 0x15F4, 0, 0x25F4, 0, 0x25F4, 0, 0x15F4, 0, 0x15F4, 0],
  [0x5F0, 0x19F5, 0x29F7, 0x19F5, 0x39F4, 0x39F4, 0x39F4, 0x39F4, 0x9FF, 0x19F5, 0x29F7, 0x19F5, 0x39F4, 0x39F4, 0x39F4, 0x39F4],
  [0x20, 0, 0, 0, 0, 0, 0, 0, 0, 0, 0, 0, 0, 0, 0, 0],
  [0x540, 0x5E1, 0, 0, 0, 0, 0, 0, 0, 0, 0, 0, 0, 0, 0, 0],
  [0x140, 0, 0x11E2, 0, 0, 0, 0, 0, 0, 0, 0, 0, 0, 0, 0, 0],
  [0x750, 0x9E3, 0x19E3, 0x3FF3, 0, 0, 0, 0, 0, 0, 0, 0, 0, 0, 0, 0],
  [0xB50, 0, 0, 0, 0x1FF4, 0, 0, 0, 0, 0, 0, 0, 0, 0, 0, 0],
  [0x1E0, 0x1EE1, 0, 0, 0xFF5, 0x1EE1, 0, 0, 0, 0, 0, 0, 0, 0, 0, 0],
  [0xEE0, 0, 0x2FF0, 0, 0x2FF0, 0, 0x2FF0, 0, 0, 0, 0, 0, 0, 0, 0, 0],
  [0x16E0, 0xF65, 0x37F7, 0xF65, 0x17F4, 0x17F4, 0x17F4, 0x17F4, 0, 0, 0, 0, 0, 0, 0, 0],
  [0x350, 0, 0, 0, 0, 0, 0, 0, 0x27F8, 0, 0, 0, 0, 0, 0, 0],
  [0x6E0, 0x1AE0, 0, 0, 0, 0, 0, 0, 0x1AE0, 0x1AE0, 0, 0, 0, 0, 0, 0],
  [0xAE0, 0, 0x12E2, 0, 0, 0, 0, 0, 0x7FA, 0, 0x12E2, 0, 0, 0, 0, 0],
  [0x2E0, 0x3BFB, 0xCEB, 0xBFB, 0, 0, 0, 0, 0x1CE8, 0x1CE8, 0x1CE8, 0x1CE8, 0, 0, 0, 0],
  [0x14E0, 0, 0, 0, 0x4E0, 0, 0, 0, 0x4E0, 0, 0, 0, 0x4E0, 0, 0, 0],
  [0x1BF0, 0x18E4, 0, 0, 0x2BF4, 0x2BF4, 0, 0, 0x18E4, 0x18E4, 0, 0, 0x2BF4, 0x2BF4, 0, 0],
  [0x33F0, 0, 0x35FE, 0, 0x13F4, 0, 0x13F4, 0, 0x23FC, 0, 0x23FC, 0, 0x13F4, 0, 0x13F4, 0],
  [0x8E0, 0x1F6F, 0x10EF, 0x3DF7, 0x15FF, 0xDFF, 0x3F6, 0x3F6, 0xEF, 0x2DFA, 0x1DFF, 0x3DF7, 0x2DFA, 0x2DFA, 0x3F6, 0x3F6],
  [0x10, 0, 0, 0, 0, 0, 0, 0, 0, 0, 0, 0, 0, 0, 0, 0],
  [0x6D0, 0x3FF1, 0, 0, 0, 0, 0, 0, 0, 0, 0, 0, 0, 0, 0, 0],
  [0xAD0, 0, 0x1FF2, 0, 0, 0, 0, 0, 0, 0, 0, 0, 0, 0, 0, 0],
  [0x2FF0, 0x37F0, 0x37F0, 0x37F0, 0, 0, 0, 0, 0, 0, 0, 0, 0, 0, 0, 0],
  [0x4C0, 0, 0, 0, 0x11E4, 0, 0, 0, 0, 0, 0, 0, 0, 0, 0, 0],
  [0x19E0, 0xFF0, 0, 0, 0xFF0, 0xFF0, 0, 0, 0, 0, 0, 0, 0, 0, 0, 0],
  [0x9E0, 0, 0x17F0, 0, 0x17F0, 0, 0x17F0, 0, 0, 0, 0, 0, 0, 0, 0, 0],
  [0x27F0, 0x2BF0, 0x2BF0, 0x2BF0, 0x2BF0, 0x2BF0, 0x2BF0, 0x2BF0, 0, 0, 0, 0, 0, 0, 0, 0],
  [0xC0, 0, 0, 0, 0, 0, 0, 0, 0x7F8, 0, 0, 0, 0, 0, 0, 0],
  [0x3BF0, 0x1BF0, 0, 0, 0, 0, 0, 0, 0x1BF0, 0x1BF0, 0, 0, 0, 0, 0, 0],
  [0xEE0, 0, 0xBF0, 0, 0, 0, 0, 0, 0xBF0, 0, 0xBF0, 0, 0, 0, 0, 0],
  [0x33F0, 0x35F0, 0x35F0, 0x35F0, 0, 0, 0, 0, 0x35F0, 0x35F0, 0x35F0, 0x35F0, 0, 0, 0, 0],
  [0x2D0, 0, 0, 0, 0x3FC, 0, 0, 0, 0x23FC, 0, 0, 0, 0x13FC, 0, 0, 0],
  [0x3DF0, 0x1DF0, 0, 0, 0x1DF0, 0x1DF0, 0, 0, 0x1DF0, 0x1DF0, 0, 0, 0x1DF0, 0x1DF0, 0, 0],
  [0x2DF0, 0, 0xDF2, 0, 0x1E2, 0, 0xDF2, 0, 0x1E2, 0, 0xDF2, 0, 0x1E2, 0, 0xDF2, 0],
  [0x15F0, 0x25F1, 0x5F3, 0x25F1, 0x1EE3, 0x25F1, 0x5F3, 0x25F1, 0x1EE3, 0x25F1, 0x5F3, 0x25F1, 0x1EE3, 0x25F1, 0x5F3, 0x25F1],
  [0x20, 0, 0, 0, 0, 0, 0, 0, 0, 0, 0, 0, 0, 0, 0, 0],
  [0xF50, 0x1DE1, 0, 0, 0, 0, 0, 0, 0, 0, 0, 0, 0, 0, 0, 0],
  [0x550, 0, 0x1FF2, 0, 0, 0, 0, 0, 0, 0, 0, 0, 0, 0, 0, 0],
  [0xDE0, 0x5E0, 0x5E0, 0x5E0, 0, 0, 0, 0, 0, 0, 0, 0, 0, 0, 0, 0],
  [0x140, 0, 0, 0, 0x15E4, 0, 0, 0, 0, 0, 0, 0, 0, 0, 0, 0],
  [0x750, 0x3FF5, 0, 0, 0x19E4, 0x19E4, 0, 0, 0, 0, 0, 0, 0, 0, 0, 0],
  [0x9E0, 0, 0x37F0, 0, 0x37F0, 0, 0x37F0, 0, 0, 0, 0, 0, 0, 0, 0, 0],
  [0x11E0, 0xAE2, 0x2FF2, 0x2FF2, 0xAE2, 0xAE2, 0x2FF2, 0x2FF2, 0, 0, 0, 0, 0, 0, 0, 0],
  [0xB50, 0, 0, 0, 0, 0, 0, 0, 0x1E8, 0, 0, 0, 0, 0, 0, 0],
  [0x1EE0, 0xFF0, 0, 0, 0, 0, 0, 0, 0xFF0, 0xFF0, 0, 0, 0, 0, 0, 0],
  [0xEE0, 0, 0x16E0, 0, 0, 0, 0, 0, 0x16E0, 0, 0x16E0, 0, 0, 0, 0, 0],
  [0x6E0, 0x27F1, 0x1AE1, 0x27F1, 0, 0, 0, 0, 0x1AE1, 0x27F1, 0x1AE1, 0x27F1, 0, 0, 0, 0],
  [0x350, 0, 0, 0, 0x12E4, 0, 0, 0, 0x17FC, 0, 0, 0, 0x12E4, 0, 0, 0],
  [0x2E0, 0x3BF1, 0, 0, 0x1CE5, 0x3BF1, 0, 0, 0x7FD, 0x3BF1, 0, 0, 0x1CE5, 0x3BF1, 0, 0],
  [0xCE0, 0, 0x2BF2, 0, 0x1BFE, 0, 0x2BF2, 0, 0xEA, 0, 0x2BF2, 0, 0xEA, 0, 0x2BF2, 0],
  [0xD50, 0x14EF, 0x10EF, 0x3FF, 0x18EF, 0x33FD, 0x13F7, 0x33FD, 0x8EF, 0xBF9, 0x23FF, 0xBF9, 0x4EF, 0xBF9, 0x13F7, 0xBF9],
  [0x30, 0, 0, 0, 0, 0, 0, 0, 0, 0, 0, 0, 0, 0, 0, 0],
  [0x140, 0x1E1, 0, 0, 0, 0, 0, 0, 0, 0, 0, 0, 0, 0, 0, 0],
  [0x640, 0, 0x1EE2, 0, 0, 0, 0, 0, 0, 0, 0, 0, 0, 0, 0, 0],
  [0xEE0, 0x3FF3, 0x6E2, 0x6E2, 0, 0, 0, 0, 0, 0, 0, 0, 0, 0, 0, 0],
  [0x240, 0, 0, 0, 0x16E4, 0, 0, 0, 0, 0, 0, 0, 0, 0, 0, 0],
  [0x550, 0x17F5, 0, 0, 0x1AE4, 0x1AE4, 0, 0, 0, 0, 0, 0, 0, 0, 0, 0],
  [0xAE0, 0, 0x1FF2, 0, 0x2FF6, 0, 0x1FF2, 0, 0, 0, 0, 0, 0, 0, 0, 0],
  [0x12E0, 0xFF3, 0x14E2, 0x14E2, 0x37F7, 0xFF3, 0x14E2, 0x14E2, 0, 0, 0, 0, 0, 0, 0, 0],
  [0xB50, 0, 0, 0, 0, 0, 0, 0, 0x2E8, 0, 0, 0, 0, 0, 0, 0],
  [0x1CE0, 0xCE0, 0, 0, 0, 0, 0, 0, 0xCE0, 0xCE0, 0, 0, 0, 0, 0, 0],
  [0x350, 0, 0x4EA, 0, 0, 0, 0, 0, 0x27FA, 0, 0x7FA, 0, 0, 0, 0, 0],
  [0x760, 0x23FB, 0x3BFB, 0x1BF2, 0, 0, 0, 0, 0x2BFA, 0x2BFA, 0x1BF2, 0x1BF2, 0, 0, 0, 0],
  [0xD50, 0, 0, 0, 0x13FC, 0, 0, 0, 0x33FC, 0, 0, 0, 0xBFC, 0, 0, 0],
  [0x18E0, 0x15FD, 0, 0, 0x3FD, 0x3DF4, 0, 0, 0x1DFC, 0x1DFC, 0, 0, 0x3DF4, 0x3DF4, 0, 0],
  [0x8E0, 0, 0x19FE, 0, 0x2DFE, 0, 0xDF4, 0, 0x10EE, 0, 0x35FE, 0, 0xDF4, 0, 0xDF4, 0],
  [0xE0, 0x11FF, 0x1F6F, 0x25F3, 0x176F, 0x9FF, 0x5F7, 0x25F3, 0xF6F, 0x29FB, 0x39FF, 0x25F3, 0x31FF, 0x29FB, 0x5F7, 0x25F3],
  [0x240, 0, 0, 0, 0, 0, 0, 0, 0, 0, 0, 0, 0, 0, 0, 0],
  [0x19E0, 0x9E1, 0, 0, 0, 0, 0, 0, 0, 0, 0, 0, 0, 0, 0, 0],
  [0x11E0, 0, 0x3FF2, 0, 0, 0, 0, 0, 0, 0, 0, 0, 0, 0, 0, 0],
  [0x1E0, 0x1FF1, 0x37F3, 0x1FF1, 0, 0, 0, 0, 0, 0, 0, 0, 0, 0, 0, 0],
  [0x16E0, 0, 0, 0, 0x2FF4, 0, 0, 0, 0, 0, 0, 0, 0, 0, 0, 0],
  [0xB50, 0x1EE1, 0, 0, 0xFF5, 0x1EE1, 0, 0, 0, 0, 0, 0, 0, 0, 0, 0],
  [0xEE0, 0, 0x3BF0, 0, 0x3BF0, 0, 0x3BF0, 0, 0, 0, 0, 0, 0, 0, 0, 0],
  [0x350, 0x6E7, 0x2BF7, 0x7F7, 0x17F7, 0x27F4, 0x27F4, 0x27F4, 0, 0, 0, 0, 0, 0, 0, 0],
  [0x1AE0, 0, 0, 0, 0, 0, 0, 0, 0x1BF8, 0, 0, 0, 0, 0, 0, 0],
  [0xAE0, 0x13F0, 0, 0, 0, 0, 0, 0, 0x13F0, 0x13F0, 0, 0, 0, 0, 0, 0],
  [0x12E0, 0, 0x14E0, 0, 0, 0, 0, 0, 0x14E0, 0, 0x14E0, 0, 0, 0, 0, 0],
  [0xD50, 0xBFB, 0x2E3, 0x33F1, 0, 0, 0, 0, 0x3DFB, 0x33F1, 0x2E3, 0x33F1, 0, 0, 0, 0],
  [0x1CE0, 0, 0, 0, 0xCE0, 0, 0, 0, 0xCE0, 0, 0, 0, 0xCE0, 0, 0, 0],
  [0x650, 0x23FD, 0, 0, 0x4E5, 0x3F1, 0, 0, 0xDFD, 0x3F1, 0, 0, 0x4E5, 0x3F1, 0, 0],
  [0x18E0, 0, 0x1DFE, 0, 0x5FE, 0, 0x2DF2, 0, 0x1F6A, 0, 0x2DF2, 0, 0x1F6A, 0, 0x2DF2, 0],
  [0x30, 0x15F, 0x55F, 0x8EF, 0xE5F, 0x176F, 0x10E7, 0x15FF, 0x95F, 0xF6B, 0xEF, 0x25FF, 0x76F, 0xF6B, 0x10E7, 0x35FF]]

/-- `enc_UVLC_table0` (source/core/coding/enc_CxtVLC_tables.hpp 352-480). -/
def encUvlc0 : List (List Nat) := [
  [0, 0x101, 0x202, 0x404, 0xC04, 0x8, 0x808, 0x1008, 0x1808, 0x2008, 0x2808, 0x3008, 0x3808, 0x4008, 0x4808, 0x5008],
  [0x5808, 0x6008, 0x6808, 0x7008, 0x7808, 0x8008, 0x8808, 0x9008, 0x9808, 0xA008, 0xA808, 0xB008, 0xB808, 0xC008, 0xC808, 0xD008],
  [0x101, 0x302, 0x603, 0x405, 0x1405, 0x9, 0x1009, 0x2009, 0x3009, 0x4009, 0x5009, 0x6009, 0x7009, 0x8009, 0x9009, 0xA009],
  [0xB009, 0xC009, 0xD009, 0xE009, 0xF009, 0x10009, 0x11009, 0x12009, 0x13009, 0x14009, 0x15009, 0x16009, 0x17009, 0x18009, 0x19009, 0x1A009],
  [0x202, 0x503, 0xA04, 0xC05, 0x1C05, 0x809, 0x1809, 0x2809, 0x3809, 0x4809, 0x5809, 0x6809, 0x7809, 0x8809, 0x9809, 0xA809],
  [0xB809, 0xC809, 0xD809, 0xE809, 0xF809, 0x10809, 0x11809, 0x12809, 0x13809, 0x14809, 0x15809, 0x16809, 0x17809, 0x18809, 0x19809, 0x1A809],
  [0x404, 0x905, 0x1206, 0x302, 0x603, 0xC05, 0x1C05, 0x809, 0x1809, 0x2809, 0x3809, 0x4809, 0x5809, 0x6809, 0x7809, 0x8809],
  [0x9809, 0xA809, 0xB809, 0xC809, 0xD809, 0xE809, 0xF809, 0x10809, 0x11809, 0x12809, 0x13809, 0x14809, 0x15809, 0x16809, 0x17809, 0x18809],
  [0xC04, 0x1905, 0x3206, 0x503, 0xA04, 0x1406, 0x3406, 0x100A, 0x300A, 0x500A, 0x700A, 0x900A, 0xB00A, 0xD00A, 0xF00A, 0x1100A],
  [0x1300A, 0x1500A, 0x1700A, 0x1900A, 0x1B00A, 0x1D00A, 0x1F00A, 0x2100A, 0x2300A, 0x2500A, 0x2700A, 0x2900A, 0x2B00A, 0x2D00A, 0x2F00A, 0x3100A],
  [0x8, 0x109, 0x20A, 0x905, 0x1206, 0x2408, 0x6408, 0x200C, 0x600C, 0xA00C, 0xE00C, 0x1200C, 0x1600C, 0x1A00C, 0x1E00C, 0x2200C],
  [0x2600C, 0x2A00C, 0x2E00C, 0x3200C, 0x3600C, 0x3A00C, 0x3E00C, 0x4200C, 0x4600C, 0x4A00C, 0x4E00C, 0x5200C, 0x5600C, 0x5A00C, 0x5E00C, 0x6200C],
  [0x808, 0x1109, 0x220A, 0x1905, 0x3206, 0xA408, 0xE408, 0x8200C, 0x8600C, 0x8A00C, 0x8E00C, 0x9200C, 0x9600C, 0x9A00C, 0x9E00C, 0xA200C],
  [0xA600C, 0xAA00C, 0xAE00C, 0xB200C, 0xB600C, 0xBA00C, 0xBE00C, 0xC200C, 0xC600C, 0xCA00C, 0xCE00C, 0xD200C, 0xD600C, 0xDA00C, 0xDE00C, 0xE200C],
  [0x1008, 0x2109, 0x420A, 0x109, 0x20A, 0x40C, 0x440C, 0x10, 0x4010, 0x8010, 0xC010, 0x10010, 0x14010, 0x18010, 0x1C010, 0x20010],
  [0x24010, 0x28010, 0x2C010, 0x30010, 0x34010, 0x38010, 0x3C010, 0x40010, 0x44010, 0x48010, 0x4C010, 0x50010, 0x54010, 0x58010, 0x5C010, 0x60010],
  [0x1808, 0x3109, 0x620A, 0x1109, 0x220A, 0x840C, 0xC40C, 0x80010, 0x84010, 0x88010, 0x8C010, 0x90010, 0x94010, 0x98010, 0x9C010, 0xA0010],
  [0xA4010, 0xA8010, 0xAC010, 0xB0010, 0xB4010, 0xB8010, 0xBC010, 0xC0010, 0xC4010, 0xC8010, 0xCC010, 0xD0010, 0xD4010, 0xD8010, 0xDC010, 0xE0010],
  [0x2008, 0x4109, 0x820A, 0x2109, 0x420A, 0x1040C, 0x1440C, 0x100010, 0x104010, 0x108010, 0x10C010, 0x110010, 0x114010, 0x118010, 0x11C010, 0x120010],
  [0x124010, 0x128010, 0x12C010, 0x130010, 0x134010, 0x138010, 0x13C010, 0x140010, 0x144010, 0x148010, 0x14C010, 0x150010, 0x154010, 0x158010, 0x15C010, 0x160010],
  [0x2808, 0x5109, 0xA20A, 0x3109, 0x620A, 0x1840C, 0x1C40C, 0x180010, 0x184010, 0x188010, 0x18C010, 0x190010, 0x194010, 0x198010, 0x19C010, 0x1A0010],
  [0x1A4010, 0x1A8010, 0x1AC010, 0x1B0010, 0x1B4010, 0x1B8010, 0x1BC010, 0x1C0010, 0x1C4010, 0x1C8010, 0x1CC010, 0x1D0010, 0x1D4010, 0x1D8010, 0x1DC010, 0x1E0010],
  [0x3008, 0x6109, 0xC20A, 0x4109, 0x820A, 0x2040C, 0x2440C, 0x200010, 0x204010, 0x208010, 0x20C010, 0x210010, 0x214010, 0x218010, 0x21C010, 0x220010],
  [0x224010, 0x228010, 0x22C010, 0x230010, 0x234010, 0x238010, 0x23C010, 0x240010, 0x244010, 0x248010, 0x24C010, 0x250010, 0x254010, 0x258010, 0x25C010, 0x260010],
  [0x3808, 0x7109, 0xE20A, 0x5109, 0xA20A, 0x2840C, 0x2C40C, 0x280010, 0x284010, 0x288010, 0x28C010, 0x290010, 0x294010, 0x298010, 0x29C010, 0x2A0010],
  [0x2A4010, 0x2A8010, 0x2AC010, 0x2B0010, 0x2B4010, 0x2B8010, 0x2BC010, 0x2C0010, 0x2C4010, 0x2C8010, 0x2CC010, 0x2D0010, 0x2D4010, 0x2D8010, 0x2DC010, 0x2E0010],
  [0x4008, 0x8109, 0x1020A, 0x6109, 0xC20A, 0x3040C, 0x3440C, 0x300010, 0x304010, 0x308010, 0x30C010, 0x310010, 0x314010, 0x318010, 0x31C010, 0x320010],
  [0x324010, 0x328010, 0x32C010, 0x330010, 0x334010, 0x338010, 0x33C010, 0x340010, 0x344010, 0x348010, 0x34C010, 0x350010, 0x354010, 0x358010, 0x35C010, 0x360010],
  [0x4808, 0x9109, 0x1220A, 0x7109, 0xE20A, 0x3840C, 0x3C40C, 0x380010, 0x384010, 0x388010, 0x38C010, 0x390010, 0x394010, 0x398010, 0x39C010, 0x3A0010],
  [0x3A4010, 0x3A8010, 0x3AC010, 0x3B0010, 0x3B4010, 0x3B8010, 0x3BC010, 0x3C0010, 0x3C4010, 0x3C8010, 0x3CC010, 0x3D0010, 0x3D4010, 0x3D8010, 0x3DC010, 0x3E0010],
  [0x5008, 0xA109, 0x1420A, 0x8109, 0x1020A, 0x4040C, 0x4440C, 0x400010, 0x404010, 0x408010, 0x40C010, 0x410010, 0x414010, 0x418010, 0x41C010, 0x420010],
  [0x424010, 0x428010, 0x42C010, 0x430010, 0x434010, 0x438010, 0x43C010, 0x440010, 0x444010, 0x448010, 0x44C010, 0x450010, 0x454010, 0x458010, 0x45C010, 0x460010],
  [0x5808, 0xB109, 0x1620A, 0x9109, 0x1220A, 0x4840C, 0x4C40C, 0x480010, 0x484010, 0x488010, 0x48C010, 0x490010, 0x494010, 0x498010, 0x49C010, 0x4A0010],
  [0x4A4010, 0x4A8010, 0x4AC010, 0x4B0010, 0x4B4010, 0x4B8010, 0x4BC010, 0x4C0010, 0x4C4010, 0x4C8010, 0x4CC010, 0x4D0010, 0x4D4010, 0x4D8010, 0x4DC010, 0x4E0010],
  [0x6008, 0xC109, 0x1820A, 0xA109, 0x1420A, 0x5040C, 0x5440C, 0x500010, 0x504010, 0x508010, 0x50C010, 0x510010, 0x514010, 0x518010, 0x51C010, 0x520010],
  [0x524010, 0x528010, 0x52C010, 0x530010, 0x534010, 0x538010, 0x53C010, 0x540010, 0x544010, 0x548010, 0x54C010, 0x550010, 0x554010, 0x558010, 0x55C010, 0x560010],
  [0x6808, 0xD109, 0x1A20A, 0xB109, 0x1620A, 0x5840C, 0x5C40C, 0x580010, 0x584010, 0x588010, 0x58C010, 0x590010, 0x594010, 0x598010, 0x59C010, 0x5A0010],
  [0x5A4010, 0x5A8010, 0x5AC010, 0x5B0010, 0x5B4010, 0x5B8010, 0x5BC010, 0x5C0010, 0x5C4010, 0x5C8010, 0x5CC010, 0x5D0010, 0x5D4010, 0x5D8010, 0x5DC010, 0x5E0010],
  [0x7008, 0xE109, 0x1C20A, 0xC109, 0x1820A, 0x6040C, 0x6440C, 0x600010, 0x604010, 0x608010, 0x60C010, 0x610010, 0x614010, 0x618010, 0x61C010, 0x620010],
  [0x624010, 0x628010, 0x62C010, 0x630010, 0x634010, 0x638010, 0x63C010, 0x640010, 0x644010, 0x648010, 0x64C010, 0x650010, 0x654010, 0x658010, 0x65C010, 0x660010],
  [0x7808, 0xF109, 0x1E20A, 0xD109, 0x1A20A, 0x6840C, 0x6C40C, 0x680010, 0x684010, 0x688010, 0x68C010, 0x690010, 0x694010, 0x698010, 0x69C010, 0x6A0010],
  [0x6A4010, 0x6A8010, 0x6AC010, 0x6B0010, 0x6B4010, 0x6B8010, 0x6BC010, 0x6C0010, 0x6C4010, 0x6C8010, 0x6CC010, 0x6D0010, 0x6D4010, 0x6D8010, 0x6DC010, 0x6E0010],
  [0x8008, 0x10109, 0x2020A, 0xE109, 0x1C20A, 0x7040C, 0x7440C, 0x700010, 0x704010, 0x708010, 0x70C010, 0x710010, 0x714010, 0x718010, 0x71C010, 0x720010],
  [0x724010, 0x728010, 0x72C010, 0x730010, 0x734010, 0x738010, 0x73C010, 0x740010, 0x744010, 0x748010, 0x74C010, 0x750010, 0x754010, 0x758010, 0x75C010, 0x760010],
  [0x8808, 0x11109, 0x2220A, 0xF109, 0x1E20A, 0x7840C, 0x7C40C, 0x780010, 0x784010, 0x788010, 0x78C010, 0x790010, 0x794010, 0x798010, 0x79C010, 0x7A0010],
  [0x7A4010, 0x7A8010, 0x7AC010, 0x7B0010, 0x7B4010, 0x7B8010, 0x7BC010, 0x7C0010, 0x7C4010, 0x7C8010, 0x7CC010, 0x7D0010, 0x7D4010, 0x7D8010, 0x7DC010, 0x7E0010],
  [0x9008, 0x12109, 0x2420A, 0x10109, 0x2020A, 0x8040C, 0x8440C, 0x800010, 0x804010, 0x808010, 0x80C010, 0x810010, 0x814010, 0x818010, 0x81C010, 0x820010],
  [0x824010, 0x828010, 0x82C010, 0x830010, 0x834010, 0x838010, 0x83C010, 0x840010, 0x844010, 0x848010, 0x84C010, 0x850010, 0x854010, 0x858010, 0x85C010, 0x860010],
  [0x9808, 0x13109, 0x2620A, 0x11109, 0x2220A, 0x8840C, 0x8C40C, 0x880010, 0x884010, 0x888010, 0x88C010, 0x890010, 0x894010, 0x898010, 0x89C010, 0x8A0010],
  [0x8A4010, 0x8A8010, 0x8AC010, 0x8B0010, 0x8B4010, 0x8B8010, 0x8BC010, 0x8C0010, 0x8C4010, 0x8C8010, 0x8CC010, 0x8D0010, 0x8D4010, 0x8D8010, 0x8DC010, 0x8E0010],
  [0xA008, 0x14109, 0x2820A, 0x12109, 0x2420A, 0x9040C, 0x9440C, 0x900010, 0x904010, 0x908010, 0x90C010, 0x910010, 0x914010, 0x918010, 0x91C010, 0x920010],
  [0x924010, 0x928010, 0x92C010, 0x930010, 0x934010, 0x938010, 0x93C010, 0x940010, 0x944010, 0x948010, 0x94C010, 0x950010, 0x954010, 0x958010, 0x95C010, 0x960010],
  [0xA808, 0x15109, 0x2A20A, 0x13109, 0x2620A, 0x9840C, 0x9C40C, 0x980010, 0x984010, 0x988010, 0x98C010, 0x990010, 0x994010, 0x998010, 0x99C010, 0x9A0010],
  [0x9A4010, 0x9A8010, 0x9AC010, 0x9B0010, 0x9B4010, 0x9B8010, 0x9BC010, 0x9C0010, 0x9C4010, 0x9C8010, 0x9CC010, 0x9D0010, 0x9D4010, 0x9D8010, 0x9DC010, 0x9E0010],
  [0xB008, 0x16109, 0x2C20A, 0x14109, 0x2820A, 0xA040C, 0xA440C, 0xA00010, 0xA04010, 0xA08010, 0xA0C010, 0xA10010, 0xA14010, 0xA18010, 0xA1C010, 0xA20010],
  [0xA24010, 0xA28010, 0xA2C010, 0xA30010, 0xA34010, 0xA38010, 0xA3C010, 0xA40010, 0xA44010, 0xA48010, 0xA4C010, 0xA50010, 0xA54010, 0xA58010, 0xA5C010, 0xA60010],
  [0xB808, 0x17109, 0x2E20A, 0x15109, 0x2A20A, 0xA840C, 0xAC40C, 0xA80010, 0xA84010, 0xA88010, 0xA8C010, 0xA90010, 0xA94010, 0xA98010, 0xA9C010, 0xAA0010],
  [0xAA4010, 0xAA8010, 0xAAC010, 0xAB0010, 0xAB4010, 0xAB8010, 0xABC010, 0xAC0010, 0xAC4010, 0xAC8010, 0xACC010, 0xAD0010, 0xAD4010, 0xAD8010, 0xADC010, 0xAE0010],
  [0xC008, 0x18109, 0x3020A, 0x16109, 0x2C20A, 0xB040C, 0xB440C, 0xB00010, 0xB04010, 0xB08010, 0xB0C010, 0xB10010, 0xB14010, 0xB18010, 0xB1C010, 0xB20010],
  [0xB24010, 0xB28010, 0xB2C010, 0xB30010, 0xB34010, 0xB38010, 0xB3C010, 0xB40010, 0xB44010, 0xB48010, 0xB4C010, 0xB50010, 0xB54010, 0xB58010, 0xB5C010, 0xB60010],
  [0xC808, 0x19109, 0x3220A, 0x17109, 0x2E20A, 0xB840C, 0xBC40C, 0xB80010, 0xB84010, 0xB88010, 0xB8C010, 0xB90010, 0xB94010, 0xB98010, 0xB9C010, 0xBA0010],
  [0xBA4010, 0xBA8010, 0xBAC010, 0xBB0010, 0xBB4010, 0xBB8010, 0xBBC010, 0xBC0010, 0xBC4010, 0xBC8010, 0xBCC010, 0xBD0010, 0xBD4010, 0xBD8010, 0xBDC010, 0xBE0010],
  [0xD008, 0x1A109, 0x3420A, 0x18109, 0x3020A, 0xC040C, 0xC440C, 0xC00010, 0xC04010, 0xC08010, 0xC0C010, 0xC10010, 0xC14010, 0xC18010, 0xC1C010, 0xC20010],
  [0xC24010, 0xC28010, 0xC2C010, 0xC30010, 0xC34010, 0xC38010, 0xC3C010, 0xC40010, 0xC44010, 0xC48010, 0xC4C010, 0xC50010, 0xC54010, 0xC58010, 0xC5C010, 0xC60010]]

/-- `enc_UVLC_table1` (source/core/coding/enc_CxtVLC_tables.hpp 482-610). -/
def encUvlc1 : List (List Nat) := [
  [0, 0x101, 0x202, 0x404, 0xC04, 0x8, 0x808, 0x1008, 0x1808, 0x2008, 0x2808, 0x3008, 0x3808, 0x4008, 0x4808, 0x5008],
  [0x5808, 0x6008, 0x6808, 0x7008, 0x7808, 0x8008, 0x8808, 0x9008, 0x9808, 0xA008, 0xA808, 0xB008, 0xB808, 0xC008, 0xC808, 0xD008],
  [0x101, 0x302, 0x603, 0xC05, 0x1C05, 0x809, 0x1809, 0x2809, 0x3809, 0x4809, 0x5809, 0x6809, 0x7809, 0x8809, 0x9809, 0xA809],
  [0xB809, 0xC809, 0xD809, 0xE809, 0xF809, 0x10809, 0x11809, 0x12809, 0x13809, 0x14809, 0x15809, 0x16809, 0x17809, 0x18809, 0x19809, 0x1A809],
  [0x202, 0x503, 0xA04, 0x1406, 0x3406, 0x100A, 0x300A, 0x500A, 0x700A, 0x900A, 0xB00A, 0xD00A, 0xF00A, 0x1100A, 0x1300A, 0x1500A],
  [0x1700A, 0x1900A, 0x1B00A, 0x1D00A, 0x1F00A, 0x2100A, 0x2300A, 0x2500A, 0x2700A, 0x2900A, 0x2B00A, 0x2D00A, 0x2F00A, 0x3100A, 0x3300A, 0x3500A],
  [0x404, 0x905, 0x1206, 0x2408, 0x6408, 0x200C, 0x600C, 0xA00C, 0xE00C, 0x1200C, 0x1600C, 0x1A00C, 0x1E00C, 0x2200C, 0x2600C, 0x2A00C],
  [0x2E00C, 0x3200C, 0x3600C, 0x3A00C, 0x3E00C, 0x4200C, 0x4600C, 0x4A00C, 0x4E00C, 0x5200C, 0x5600C, 0x5A00C, 0x5E00C, 0x6200C, 0x6600C, 0x6A00C],
  [0xC04, 0x1905, 0x3206, 0xA408, 0xE408, 0x8200C, 0x8600C, 0x8A00C, 0x8E00C, 0x9200C, 0x9600C, 0x9A00C, 0x9E00C, 0xA200C, 0xA600C, 0xAA00C],
  [0xAE00C, 0xB200C, 0xB600C, 0xBA00C, 0xBE00C, 0xC200C, 0xC600C, 0xCA00C, 0xCE00C, 0xD200C, 0xD600C, 0xDA00C, 0xDE00C, 0xE200C, 0xE600C, 0xEA00C],
  [0x8, 0x109, 0x20A, 0x40C, 0x440C, 0x10, 0x4010, 0x8010, 0xC010, 0x10010, 0x14010, 0x18010, 0x1C010, 0x20010, 0x24010, 0x28010],
  [0x2C010, 0x30010, 0x34010, 0x38010, 0x3C010, 0x40010, 0x44010, 0x48010, 0x4C010, 0x50010, 0x54010, 0x58010, 0x5C010, 0x60010, 0x64010, 0x68010],
  [0x808, 0x1109, 0x220A, 0x840C, 0xC40C, 0x80010, 0x84010, 0x88010, 0x8C010, 0x90010, 0x94010, 0x98010, 0x9C010, 0xA0010, 0xA4010, 0xA8010],
  [0xAC010, 0xB0010, 0xB4010, 0xB8010, 0xBC010, 0xC0010, 0xC4010, 0xC8010, 0xCC010, 0xD0010, 0xD4010, 0xD8010, 0xDC010, 0xE0010, 0xE4010, 0xE8010],
  [0x1008, 0x2109, 0x420A, 0x1040C, 0x1440C, 0x100010, 0x104010, 0x108010, 0x10C010, 0x110010, 0x114010, 0x118010, 0x11C010, 0x120010, 0x124010, 0x128010],
  [0x12C010, 0x130010, 0x134010, 0x138010, 0x13C010, 0x140010, 0x144010, 0x148010, 0x14C010, 0x150010, 0x154010, 0x158010, 0x15C010, 0x160010, 0x164010, 0x168010],
  [0x1808, 0x3109, 0x620A, 0x1840C, 0x1C40C, 0x180010, 0x184010, 0x188010, 0x18C010, 0x190010, 0x194010, 0x198010, 0x19C010, 0x1A0010, 0x1A4010, 0x1A8010],
  [0x1AC010, 0x1B0010, 0x1B4010, 0x1B8010, 0x1BC010, 0x1C0010, 0x1C4010, 0x1C8010, 0x1CC010, 0x1D0010, 0x1D4010, 0x1D8010, 0x1DC010, 0x1E0010, 0x1E4010, 0x1E8010],
  [0x2008, 0x4109, 0x820A, 0x2040C, 0x2440C, 0x200010, 0x204010, 0x208010, 0x20C010, 0x210010, 0x214010, 0x218010, 0x21C010, 0x220010, 0x224010, 0x228010],
  [0x22C010, 0x230010, 0x234010, 0x238010, 0x23C010, 0x240010, 0x244010, 0x248010, 0x24C010, 0x250010, 0x254010, 0x258010, 0x25C010, 0x260010, 0x264010, 0x268010],
  [0x2808, 0x5109, 0xA20A, 0x2840C, 0x2C40C, 0x280010, 0x284010, 0x288010, 0x28C010, 0x290010, 0x294010, 0x298010, 0x29C010, 0x2A0010, 0x2A4010, 0x2A8010],
  [0x2AC010, 0x2B0010, 0x2B4010, 0x2B8010, 0x2BC010, 0x2C0010, 0x2C4010, 0x2C8010, 0x2CC010, 0x2D0010, 0x2D4010, 0x2D8010, 0x2DC010, 0x2E0010, 0x2E4010, 0x2E8010],
  [0x3008, 0x6109, 0xC20A, 0x3040C, 0x3440C, 0x300010, 0x304010, 0x308010, 0x30C010, 0x310010, 0x314010, 0x318010, 0x31C010, 0x320010, 0x324010, 0x328010],
  [0x32C010, 0x330010, 0x334010, 0x338010, 0x33C010, 0x340010, 0x344010, 0x348010, 0x34C010, 0x350010, 0x354010, 0x358010, 0x35C010, 0x360010, 0x364010, 0x368010],
  [0x3808, 0x7109, 0xE20A, 0x3840C, 0x3C40C, 0x380010, 0x384010, 0x388010, 0x38C010, 0x390010, 0x394010, 0x398010, 0x39C010, 0x3A0010, 0x3A4010, 0x3A8010],
  [0x3AC010, 0x3B0010, 0x3B4010, 0x3B8010, 0x3BC010, 0x3C0010, 0x3C4010, 0x3C8010, 0x3CC010, 0x3D0010, 0x3D4010, 0x3D8010, 0x3DC010, 0x3E0010, 0x3E4010, 0x3E8010],
  [0x4008, 0x8109, 0x1020A, 0x4040C, 0x4440C, 0x400010, 0x404010, 0x408010, 0x40C010, 0x410010, 0x414010, 0x418010, 0x41C010, 0x420010, 0x424010, 0x428010],
  [0x42C010, 0x430010, 0x434010, 0x438010, 0x43C010, 0x440010, 0x444010, 0x448010, 0x44C010, 0x450010, 0x454010, 0x458010, 0x45C010, 0x460010, 0x464010, 0x468010],
  [0x4808, 0x9109, 0x1220A, 0x4840C, 0x4C40C, 0x480010, 0x484010, 0x488010, 0x48C010, 0x490010, 0x494010, 0x498010, 0x49C010, 0x4A0010, 0x4A4010, 0x4A8010],
  [0x4AC010, 0x4B0010, 0x4B4010, 0x4B8010, 0x4BC010, 0x4C0010, 0x4C4010, 0x4C8010, 0x4CC010, 0x4D0010, 0x4D4010, 0x4D8010, 0x4DC010, 0x4E0010, 0x4E4010, 0x4E8010],
  [0x5008, 0xA109, 0x1420A, 0x5040C, 0x5440C, 0x500010, 0x504010, 0x508010, 0x50C010, 0x510010, 0x514010, 0x518010, 0x51C010, 0x520010, 0x524010, 0x528010],
  [0x52C010, 0x530010, 0x534010, 0x538010, 0x53C010, 0x540010, 0x544010, 0x548010, 0x54C010, 0x550010, 0x554010, 0x558010, 0x55C010, 0x560010, 0x564010, 0x568010],
  [0x5808, 0xB109, 0x1620A, 0x5840C, 0x5C40C, 0x580010, 0x584010, 0x588010, 0x58C010, 0x590010, 0x594010, 0x598010, 0x59C010, 0x5A0010, 0x5A4010, 0x5A8010],
  [0x5AC010, 0x5B0010, 0x5B4010, 0x5B8010, 0x5BC010, 0x5C0010, 0x5C4010, 0x5C8010, 0x5CC010, 0x5D0010, 0x5D4010, 0x5D8010, 0x5DC010, 0x5E0010, 0x5E4010, 0x5E8010],
  [0x6008, 0xC109, 0x1820A, 0x6040C, 0x6440C, 0x600010, 0x604010, 0x608010, 0x60C010, 0x610010, 0x614010, 0x618010, 0x61C010, 0x620010, 0x624010, 0x628010],
  [0x62C010, 0x630010, 0x634010, 0x638010, 0x63C010, 0x640010, 0x644010, 0x648010, 0x64C010, 0x650010, 0x654010, 0x658010, 0x65C010, 0x660010, 0x664010, 0x668010],
  [0x6808, 0xD109, 0x1A20A, 0x6840C, 0x6C40C, 0x680010, 0x684010, 0x688010, 0x68C010, 0x690010, 0x694010, 0x698010, 0x69C010, 0x6A0010, 0x6A4010, 0x6A8010],
  [0x6AC010, 0x6B0010, 0x6B4010, 0x6B8010, 0x6BC010, 0x6C0010, 0x6C4010, 0x6C8010, 0x6CC010, 0x6D0010, 0x6D4010, 0x6D8010, 0x6DC010, 0x6E0010, 0x6E4010, 0x6E8010],
  [0x7008, 0xE109, 0x1C20A, 0x7040C, 0x7440C, 0x700010, 0x704010, 0x708010, 0x70C010, 0x710010, 0x714010, 0x718010, 0x71C010, 0x720010, 0x724010, 0x728010],
  [0x72C010, 0x730010, 0x734010, 0x738010, 0x73C010, 0x740010, 0x744010, 0x748010, 0x74C010, 0x750010, 0x754010, 0x758010, 0x75C010, 0x760010, 0x764010, 0x768010],
  [0x7808, 0xF109, 0x1E20A, 0x7840C, 0x7C40C, 0x780010, 0x784010, 0x788010, 0x78C010, 0x790010, 0x794010, 0x798010, 0x79C010, 0x7A0010, 0x7A4010, 0x7A8010],
  [0x7AC010, 0x7B0010, 0x7B4010, 0x7B8010, 0x7BC010, 0x7C0010, 0x7C4010, 0x7C8010, 0x7CC010, 0x7D0010, 0x7D4010, 0x7D8010, 0x7DC010, 0x7E0010, 0x7E4010, 0x7E8010],
  [0x8008, 0x10109, 0x2020A, 0x8040C, 0x8440C, 0x800010, 0x804010, 0x808010, 0x80C010, 0x810010, 0x814010, 0x818010, 0x81C010, 0x820010, 0x824010, 0x828010],
  [0x82C010, 0x830010, 0x834010, 0x838010, 0x83C010, 0x840010, 0x844010, 0x848010, 0x84C010, 0x850010, 0x854010, 0x858010, 0x85C010, 0x860010, 0x864010, 0x868010],
  [0x8808, 0x11109, 0x2220A, 0x8840C, 0x8C40C, 0x880010, 0x884010, 0x888010, 0x88C010, 0x890010, 0x894010, 0x898010, 0x89C010, 0x8A0010, 0x8A4010, 0x8A8010],
  [0x8AC010, 0x8B0010, 0x8B4010, 0x8B8010, 0x8BC010, 0x8C0010, 0x8C4010, 0x8C8010, 0x8CC010, 0x8D0010, 0x8D4010, 0x8D8010, 0x8DC010, 0x8E0010, 0x8E4010, 0x8E8010],
  [0x9008, 0x12109, 0x2420A, 0x9040C, 0x9440C, 0x900010, 0x904010, 0x908010, 0x90C010, 0x910010, 0x914010, 0x918010, 0x91C010, 0x920010, 0x924010, 0x928010],
  [0x92C010, 0x930010, 0x934010, 0x938010, 0x93C010, 0x940010, 0x944010, 0x948010, 0x94C010, 0x950010, 0x954010, 0x958010, 0x95C010, 0x960010, 0x964010, 0x968010],
  [0x9808, 0x13109, 0x2620A, 0x9840C, 0x9C40C, 0x980010, 0x984010, 0x988010, 0x98C010, 0x990010, 0x994010, 0x998010, 0x99C010, 0x9A0010, 0x9A4010, 0x9A8010],
  [0x9AC010, 0x9B0010, 0x9B4010, 0x9B8010, 0x9BC010, 0x9C0010, 0x9C4010, 0x9C8010, 0x9CC010, 0x9D0010, 0x9D4010, 0x9D8010, 0x9DC010, 0x9E0010, 0x9E4010, 0x9E8010],
  [0xA008, 0x14109, 0x2820A, 0xA040C, 0xA440C, 0xA00010, 0xA04010, 0xA08010, 0xA0C010, 0xA10010, 0xA14010, 0xA18010, 0xA1C010, 0xA20010, 0xA24010, 0xA28010],
  [0xA2C010, 0xA30010, 0xA34010, 0xA38010, 0xA3C010, 0xA40010, 0xA44010, 0xA48010, 0xA4C010, 0xA50010, 0xA54010, 0xA58010, 0xA5C010, 0xA60010, 0xA64010, 0xA68010],
  [0xA808, 0x15109, 0x2A20A, 0xA840C, 0xAC40C, 0xA80010, 0xA84010, 0xA88010, 0xA8C010, 0xA90010, 0xA94010, 0xA98010, 0xA9C010, 0xAA0010, 0xAA4010, 0xAA8010],
  [0xAAC010, 0xAB0010, 0xAB4010, 0xAB8010, 0xABC010, 0xAC0010, 0xAC4010, 0xAC8010, 0xACC010, 0xAD0010, 0xAD4010, 0xAD8010, 0xADC010, 0xAE0010, 0xAE4010, 0xAE8010],
  [0xB008, 0x16109, 0x2C20A, 0xB040C, 0xB440C, 0xB00010, 0xB04010, 0xB08010, 0xB0C010, 0xB10010, 0xB14010, 0xB18010, 0xB1C010, 0xB20010, 0xB24010, 0xB28010],
  [0xB2C010, 0xB30010, 0xB34010, 0xB38010, 0xB3C010, 0xB40010, 0xB44010, 0xB48010, 0xB4C010, 0xB50010, 0xB54010, 0xB58010, 0xB5C010, 0xB60010, 0xB64010, 0xB68010],
  [0xB808, 0x17109, 0x2E20A, 0xB840C, 0xBC40C, 0xB80010, 0xB84010, 0xB88010, 0xB8C010, 0xB90010, 0xB94010, 0xB98010, 0xB9C010, 0xBA0010, 0xBA4010, 0xBA8010],
  [0xBAC010, 0xBB0010, 0xBB4010, 0xBB8010, 0xBBC010, 0xBC0010, 0xBC4010, 0xBC8010, 0xBCC010, 0xBD0010, 0xBD4010, 0xBD8010, 0xBDC010, 0xBE0010, 0xBE4010, 0xBE8010],
  [0xC008, 0x18109, 0x3020A, 0xC040C, 0xC440C, 0xC00010, 0xC04010, 0xC08010, 0xC0C010, 0xC10010, 0xC14010, 0xC18010, 0xC1C010, 0xC20010, 0xC24010, 0xC28010],
  [0xC2C010, 0xC30010, 0xC34010, 0xC38010, 0xC3C010, 0xC40010, 0xC44010, 0xC48010, 0xC4C010, 0xC50010, 0xC54010, 0xC58010, 0xC5C010, 0xC60010, 0xC64010, 0xC68010],
  [0xC808, 0x19109, 0x3220A, 0xC840C, 0xCC40C, 0xC80010, 0xC84010, 0xC88010, 0xC8C010, 0xC90010, 0xC94010, 0xC98010, 0xC9C010, 0xCA0010, 0xCA4010, 0xCA8010],
  [0xCAC010, 0xCB0010, 0xCB4010, 0xCB8010, 0xCBC010, 0xCC0010, 0xCC4010, 0xCC8010, 0xCCC010, 0xCD0010, 0xCD4010, 0xCD8010, 0xCDC010, 0xCE0010, 0xCE4010, 0xCE8010],
  [0xD008, 0x1A109, 0x3420A, 0xD040C, 0xD440C, 0xD00010, 0xD04010, 0xD08010, 0xD0C010, 0xD10010, 0xD14010, 0xD18010, 0xD1C010, 0xD20010, 0xD24010, 0xD28010],
  [0xD2C010, 0xD30010, 0xD34010, 0xD38010, 0xD3C010, 0xD40010, 0xD44010, 0xD48010, 0xD4C010, 0xD50010, 0xD54010, 0xD58010, 0xD5C010, 0xD60010, 0xD64010, 0xD68010]]

end Verif.Ht

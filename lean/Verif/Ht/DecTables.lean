import Verif.Tactics

/-!
# Tables of the HT block decoder

Generated from the C++ tables, entry for entry, in rows of sixteen.
-/

namespace Verif.Ht

/-- `dec_CxtVLC_table0_fast_16` (source/core/coding/dec_CxtVLC_tables.hpp 112-191). -/
def decVlc0 : List (List Nat) := [
  [0x26, 0xAA, 0x46, 0x6C, 0x86, 0xA8ED, 0x18, 0xD8DF, 0x26, 0x10BD, 0x46, 0xF5FF, 0x86, 0x207D, 0x5A, 0x515F],
  [0x26, 0x3A, 0x46, 0x444D, 0x86, 0xC4CD, 0x18, 0xCCCF, 0x26, 0xE2FD, 0x46, 0x99FF, 0x86, 0x9C, 0xCA, 0x313F],
  [0x26, 0xAA, 0x46, 0x445D, 0x86, 0xC8CD, 0x18, 0x11DF, 0x26, 0xF4FD, 0x46, 0xFCFF, 0x86, 0x9D, 0x5A, 0x7E],
  [0x26, 0x3A, 0x46, 0xF1FF, 0x86, 0x88AD, 0x18, 0xBE, 0x26, 0xF8FD, 0x46, 0xE4EF, 0x86, 0x888D, 0xCA, 0x111F],
  [0x26, 0xAA, 0x46, 0x6C, 0x86, 0xA8ED, 0x18, 0x54DF, 0x26, 0x10BD, 0x46, 0x22EF, 0x86, 0x207D, 0x5A, 0x227F],
  [0x26, 0x3A, 0x46, 0x444D, 0x86, 0xC4CD, 0x18, 0x11BF, 0x26, 0xE2FD, 0x46, 0xFE, 0x86, 0x9C, 0xCA, 0x223F],
  [0x26, 0xAA, 0x46, 0x445D, 0x86, 0xC8CD, 0x18, 0xDE, 0x26, 0xF4FD, 0x46, 0xBAFF, 0x86, 0x9D, 0x5A, 0x6F],
  [0x26, 0x3A, 0x46, 0xE6FF, 0x86, 0x88AD, 0x18, 0xA2AF, 0x26, 0xF8FD, 0x46, 0xEE, 0x86, 0x888D, 0xCA, 0x222F],
  [0x4, 0xCA, 0x88, 0x207D, 0x4, 0xC4CD, 0x28, 0xFE, 0x4, 0xA2FD, 0x48, 0x5C, 0x4, 0x9D, 0x18, 0xDE],
  [0x4, 0x10BD, 0x88, 0x6C, 0x4, 0x88AD, 0x28, 0x11DF, 0x4, 0xA8ED, 0x48, 0x3C, 0x4, 0x888D, 0x18, 0x111F],
  [0x4, 0xCA, 0x88, 0x6D, 0x4, 0x88CD, 0x28, 0x88FF, 0x4, 0xB8FD, 0x48, 0x444D, 0x4, 0x9C, 0x18, 0xBE],
  [0x4, 0xE4FD, 0x88, 0x445D, 0x4, 0xAC, 0x28, 0xEE, 0x4, 0x54DD, 0x48, 0x222D, 0x4, 0x3D, 0x18, 0x7E],
  [0x4, 0xCA, 0x88, 0x207D, 0x4, 0xC4CD, 0x28, 0xF1FF, 0x4, 0xA2FD, 0x48, 0x5C, 0x4, 0x9D, 0x18, 0x11BF],
  [0x4, 0x10BD, 0x88, 0x6C, 0x4, 0x88AD, 0x28, 0x22EF, 0x4, 0xA8ED, 0x48, 0x3C, 0x4, 0x888D, 0x18, 0x227F],
  [0x4, 0xCA, 0x88, 0x6D, 0x4, 0x88CD, 0x28, 0xE4EF, 0x4, 0xB8FD, 0x48, 0x444D, 0x4, 0x9C, 0x18, 0xA2AF],
  [0x4, 0xE4FD, 0x88, 0x445D, 0x4, 0xAC, 0x28, 0xD8DF, 0x4, 0x54DD, 0x48, 0x222D, 0x4, 0x3D, 0x18, 0x515F],
  [0x4, 0x5A, 0x88, 0x6C, 0x4, 0x88DD, 0x28, 0x32FF, 0x4, 0x11FD, 0x48, 0x444D, 0x4, 0xAD, 0x18, 0xBE],
  [0x4, 0x317D, 0x88, 0x515D, 0x4, 0xCC, 0x28, 0xDE, 0x4, 0x20ED, 0x48, 0x111D, 0x4, 0x9D, 0x18, 0x7E],
  [0x4, 0x5A, 0x88, 0x545D, 0x4, 0x44CD, 0x28, 0xEE, 0x4, 0xF1FD, 0x48, 0x3C, 0x4, 0xAC, 0x18, 0x555F],
  [0x4, 0x74FD, 0x88, 0x113D, 0x4, 0x20BD, 0x28, 0x747F, 0x4, 0xC4DD, 0x48, 0xF8FF, 0x4, 0x9C, 0x18, 0x222F],
  [0x4, 0x5A, 0x88, 0x6C, 0x4, 0x88DD, 0x28, 0xFE, 0x4, 0x11FD, 0x48, 0x444D, 0x4, 0xAD, 0x18, 0x888F],
  [0x4, 0x317D, 0x88, 0x515D, 0x4, 0xCC, 0x28, 0xC8CF, 0x4, 0x20ED, 0x48, 0x111D, 0x4, 0x9D, 0x18, 0x6F],
  [0x4, 0x5A, 0x88, 0x545D, 0x4, 0x44CD, 0x28, 0xD1DF, 0x4, 0xF1FD, 0x48, 0x3C, 0x4, 0xAC, 0x18, 0x227F],
  [0x4, 0x74FD, 0x88, 0x113D, 0x4, 0x20BD, 0x28, 0x22BF, 0x4, 0xC4DD, 0x48, 0x22EF, 0x4, 0x9C, 0x18, 0x323F],
  [0x6, 0xD4DD, 0xF4FB, 0xFCFF, 0x18, 0x113D, 0x5A, 0x888F, 0x6, 0x32BD, 0x8A, 0xEE, 0x2A, 0x515D, 0xAAFD, 0x727F],
  [0x6, 0x44CD, 0xF8FB, 0x44EF, 0x18, 0x647D, 0x4A, 0xA2AF, 0x6, 0xAC, 0x555B, 0x99DF, 0xF1FB, 0x3C, 0xF5FD, 0x626F],
  [0x6, 0xD1DD, 0xF4FB, 0xE6FF, 0x18, 0x717D, 0x5A, 0xB1BF, 0x6, 0x88AD, 0x8A, 0xD5DF, 0x2A, 0x444D, 0xF2FD, 0x667F],
  [0x6, 0xCC, 0xF8FB, 0xE2EF, 0x18, 0x545D, 0x4A, 0x119F, 0x6, 0x9C, 0x555B, 0xC8CF, 0xF1FB, 0x111D, 0xC8ED, 0x6E],
  [0x6, 0xD4DD, 0xF4FB, 0xF3FF, 0x18, 0x113D, 0x5A, 0x11BF, 0x6, 0x32BD, 0x8A, 0xD8DF, 0x2A, 0x515D, 0xAAFD, 0x222F],
  [0x6, 0x44CD, 0xF8FB, 0xFE, 0x18, 0x647D, 0x4A, 0x989F, 0x6, 0xAC, 0x555B, 0xDE, 0xF1FB, 0x3C, 0xF5FD, 0x446F],
  [0x6, 0xD1DD, 0xF4FB, 0xB9FF, 0x18, 0x717D, 0x5A, 0xBE, 0x6, 0x88AD, 0x8A, 0xDCDF, 0x2A, 0x444D, 0xF2FD, 0x7E],
  [0x6, 0xCC, 0xF8FB, 0xE4EF, 0x18, 0x545D, 0x4A, 0x737F, 0x6, 0x9C, 0x555B, 0xB8BF, 0xF1FB, 0x111D, 0xC8ED, 0x323F],
  [0x4, 0xAA, 0x88, 0x407D, 0x4, 0x10DD, 0x28, 0x11DF, 0x4, 0x72FD, 0x48, 0x5C, 0x4, 0xA8AD, 0x18, 0xB2BF],
  [0x4, 0x9C, 0x88, 0x6C, 0x4, 0xCC, 0x28, 0xEE, 0x4, 0xC8ED, 0x48, 0x222D, 0x4, 0x888D, 0x18, 0x7E],
  [0x4, 0xAA, 0x88, 0x6D, 0x4, 0x88CD, 0x28, 0xFE, 0x4, 0x91FD, 0x48, 0x3C, 0x4, 0xA2AD, 0x18, 0xAAAF],
  [0x4, 0xB8FD, 0x88, 0x5D, 0x4, 0xBD, 0x28, 0xC4CF, 0x4, 0x44ED, 0x48, 0xF4FF, 0x4, 0x223D, 0x18, 0x111F],
  [0x4, 0xAA, 0x88, 0x407D, 0x4, 0x10DD, 0x28, 0x99FF, 0x4, 0x72FD, 0x48, 0x5C, 0x4, 0xA8AD, 0x18, 0xBE],
  [0x4, 0x9C, 0x88, 0x6C, 0x4, 0xCC, 0x28, 0xDE, 0x4, 0xC8ED, 0x48, 0x222D, 0x4, 0x888D, 0x18, 0x444F],
  [0x4, 0xAA, 0x88, 0x6D, 0x4, 0x88CD, 0x28, 0xE2EF, 0x4, 0x91FD, 0x48, 0x3C, 0x4, 0xA2AD, 0x18, 0x447F],
  [0x4, 0xB8FD, 0x88, 0x5D, 0x4, 0xBD, 0x28, 0x9F, 0x4, 0x44ED, 0x48, 0x76FF, 0x4, 0x223D, 0x18, 0x313F],
  [0x6, 0xCC, 0x8A, 0xD9FF, 0xF2FB, 0x647D, 0xF1FD, 0x99BF, 0x6, 0xA2AD, 0x2A, 0x66EF, 0xF4FB, 0x5C, 0xE2ED, 0x737F],
  [0x6, 0x98BD, 0x4A, 0xFE, 0xF8FB, 0x6C, 0x76FD, 0x889F, 0x6, 0x888D, 0x1A, 0xD5DF, 0xAA, 0x222D, 0x98DD, 0x444F],
  [0x6, 0xB2BD, 0x8A, 0xFCFF, 0xF2FB, 0x226D, 0x9C, 0xBE, 0x6, 0xAAAD, 0x2A, 0xD1DF, 0xF4FB, 0x3C, 0xD4DD, 0x646F],
  [0x6, 0xA8AD, 0x4A, 0xEAEF, 0xF8FB, 0x445D, 0xE8ED, 0x717F, 0x6, 0x323D, 0x1A, 0xC4CF, 0xAA, 0xFAFF, 0x88CD, 0x313F],
  [0x6, 0xCC, 0x8A, 0x77FF, 0xF2FB, 0x647D, 0xF1FD, 0xB3BF, 0x6, 0xA2AD, 0x2A, 0xEE, 0xF4FB, 0x5C, 0xE2ED, 0x7E],
  [0x6, 0x98BD, 0x4A, 0xE4EF, 0xF8FB, 0x6C, 0x76FD, 0x667F, 0x6, 0x888D, 0x1A, 0xDE, 0xAA, 0x222D, 0x98DD, 0x333F],
  [0x6, 0xB2BD, 0x8A, 0x75FF, 0xF2FB, 0x226D, 0x9C, 0x919F, 0x6, 0xAAAD, 0x2A, 0x99DF, 0xF4FB, 0x3C, 0xD4DD, 0x515F],
  [0x6, 0xA8AD, 0x4A, 0xECEF, 0xF8FB, 0x445D, 0xE8ED, 0x727F, 0x6, 0x323D, 0x1A, 0xB1BF, 0xAA, 0xF3FF, 0x88CD, 0x111F],
  [0x6, 0x54DD, 0xF2FB, 0x111D, 0x18, 0x647D, 0xF8FD, 0xCCCF, 0x6, 0x91BD, 0x4A, 0x22EF, 0x2A, 0x222D, 0xF3FD, 0x888F],
  [0x6, 0xCC, 0x8A, 0xFE, 0x18, 0x115D, 0xFCFD, 0xA8AF, 0x6, 0xAC, 0x3A, 0xC8DF, 0xF1FB, 0x313D, 0x66FD, 0x646F],
  [0x6, 0xC8CD, 0xF2FB, 0xF5FF, 0x18, 0x6C, 0xF4FD, 0xBABF, 0x6, 0x22AD, 0x4A, 0xEE, 0x2A, 0x323D, 0xEAFD, 0x737F],
  [0x6, 0xB2BD, 0x8A, 0x55DF, 0x18, 0x5C, 0x717D, 0x119F, 0x6, 0x9C, 0x3A, 0xC4CF, 0xF1FB, 0x333D, 0xE8ED, 0x444F],
  [0x6, 0x54DD, 0xF2FB, 0x111D, 0x18, 0x647D, 0xF8FD, 0x99BF, 0x6, 0x91BD, 0x4A, 0xE2EF, 0x2A, 0x222D, 0xF3FD, 0x667F],
  [0x6, 0xCC, 0x8A, 0xE4EF, 0x18, 0x115D, 0xFCFD, 0x989F, 0x6, 0xAC, 0x3A, 0xDE, 0xF1FB, 0x313D, 0x66FD, 0x226F],
  [0x6, 0xC8CD, 0xF2FB, 0xB9FF, 0x18, 0x6C, 0xF4FD, 0xBE, 0x6, 0x22AD, 0x4A, 0xD1DF, 0x2A, 0x323D, 0xEAFD, 0x7E],
  [0x6, 0xB2BD, 0x8A, 0xECEF, 0x18, 0x5C, 0x717D, 0x727F, 0x6, 0x9C, 0x3A, 0xB8BF, 0xF1FB, 0x333D, 0xE8ED, 0x545F],
  [0xF1F9, 0xD1DD, 0xFAFB, 0xDE, 0xF8F9, 0x1C, 0xFFFB, 0x747F, 0xF4F9, 0x717D, 0xF3FB, 0xB3BF, 0xF2F9, 0xEAEF, 0xE8ED, 0x444F],
  [0xF1F9, 0x22AD, 0xA, 0xB8BF, 0xF8F9, 0xFE, 0xFCFD, 0x7E, 0xF4F9, 0x115D, 0xF5FB, 0x757F, 0xF2F9, 0xD8DF, 0xE2ED, 0x333F],
  [0xF1F9, 0xB2BD, 0xFAFB, 0x88CF, 0xF8F9, 0xFBFF, 0xFFFB, 0x737F, 0xF4F9, 0x6D, 0xF3FB, 0xBE, 0xF2F9, 0x66EF, 0xF9FD, 0x313F],
  [0xF1F9, 0x9D, 0xA, 0xBABF, 0xF8F9, 0xFDFF, 0xF6FD, 0x6E, 0xF4F9, 0x2C, 0xF5FB, 0x888F, 0xF2F9, 0xDCDF, 0xD4DD, 0x222F],
  [0xF1F9, 0xD1DD, 0xFAFB, 0xC4CF, 0xF8F9, 0x1C, 0xFFFB, 0x727F, 0xF4F9, 0x717D, 0xF3FB, 0x99BF, 0xF2F9, 0xECEF, 0xE8ED, 0x4E],
  [0xF1F9, 0x22AD, 0xA, 0xAE, 0xF8F9, 0xF7FF, 0xFCFD, 0x5E, 0xF4F9, 0x115D, 0xF5FB, 0x9E, 0xF2F9, 0xD5DF, 0xE2ED, 0x3E],
  [0xF1F9, 0xB2BD, 0xFAFB, 0xCE, 0xF8F9, 0xFEFF, 0xFFFB, 0x667F, 0xF4F9, 0x6D, 0xF3FB, 0xA8AF, 0xF2F9, 0xEE, 0xF9FD, 0x323F],
  [0xF1F9, 0x9D, 0xA, 0xB1BF, 0xF8F9, 0xE4EF, 0xF6FD, 0x545F, 0xF4F9, 0x2C, 0xF5FB, 0x8E, 0xF2F9, 0x99DF, 0xD4DD, 0x111F]]

/-- `dec_CxtVLC_table1_fast_16` (source/core/coding/dec_CxtVLC_tables.hpp 31-110). -/
def decVlc1 : List (List Nat) := [
  [0x16, 0x6A, 0x46, 0xDD, 0x86, 0x888B, 0x26, 0x444D, 0x16, 0xAA, 0x46, 0x88AD, 0x86, 0x3A, 0x26, 0xDE],
  [0x16, 0xCA, 0x46, 0x9D, 0x86, 0x5A, 0x26, 0x222D, 0x16, 0x9A, 0x46, 0x7D, 0x86, 0x10FD, 0x26, 0x7E],
  [0x16, 0x6A, 0x46, 0x88CD, 0x86, 0x888B, 0x26, 0x111D, 0x16, 0xAA, 0x46, 0x5D, 0x86, 0x3A, 0x26, 0xEE],
  [0x16, 0xCA, 0x46, 0xBD, 0x86, 0x5A, 0x26, 0x11FF, 0x16, 0x9A, 0x46, 0x3D, 0x86, 0x40ED, 0x26, 0xA2AF],
  [0x16, 0x6A, 0x46, 0xDD, 0x86, 0x888B, 0x26, 0x444D, 0x16, 0xAA, 0x46, 0x88AD, 0x86, 0x3A, 0x26, 0x44EF],
  [0x16, 0xCA, 0x46, 0x9D, 0x86, 0x5A, 0x26, 0x222D, 0x16, 0x9A, 0x46, 0x7D, 0x86, 0x10FD, 0x26, 0xBE],
  [0x16, 0x6A, 0x46, 0x88CD, 0x86, 0x888B, 0x26, 0x111D, 0x16, 0xAA, 0x46, 0x5D, 0x86, 0x3A, 0x26, 0xC4CF],
  [0x16, 0xCA, 0x46, 0xBD, 0x86, 0x5A, 0x26, 0xFE, 0x16, 0x9A, 0x46, 0x3D, 0x86, 0x40ED, 0x26, 0x6F],
  [0x2, 0x88, 0x2, 0x5C, 0x2, 0x18, 0x2, 0xDE, 0x2, 0x28, 0x2, 0x9C, 0x2, 0x4A, 0x2, 0x7E],
  [0x2, 0x88, 0x2, 0xCC, 0x2, 0x18, 0x2, 0x888F, 0x2, 0x28, 0x2, 0xFE, 0x2, 0x3A, 0x2, 0x222F],
  [0x2, 0x88, 0x2, 0x40FD, 0x2, 0x18, 0x2, 0xBE, 0x2, 0x28, 0x2, 0xBF, 0x2, 0x4A, 0x2, 0x6E],
  [0x2, 0x88, 0x2, 0xAC, 0x2, 0x18, 0x2, 0x444F, 0x2, 0x28, 0x2, 0xEE, 0x2, 0x3A, 0x2, 0x113F],
  [0x2, 0x88, 0x2, 0x5C, 0x2, 0x18, 0x2, 0xCF, 0x2, 0x28, 0x2, 0x9C, 0x2, 0x4A, 0x2, 0x6F],
  [0x2, 0x88, 0x2, 0xCC, 0x2, 0x18, 0x2, 0x9F, 0x2, 0x28, 0x2, 0xEF, 0x2, 0x3A, 0x2, 0x323F],
  [0x2, 0x88, 0x2, 0x40FD, 0x2, 0x18, 0x2, 0xAF, 0x2, 0x28, 0x2, 0x44FF, 0x2, 0x4A, 0x2, 0x5F],
  [0x2, 0x88, 0x2, 0xAC, 0x2, 0x18, 0x2, 0x7F, 0x2, 0x28, 0x2, 0xDF, 0x2, 0x3A, 0x2, 0x111F],
  [0x2, 0x28, 0x2, 0x5C, 0x2, 0x8A, 0x2, 0xBF, 0x2, 0x18, 0x2, 0xFE, 0x2, 0xCC, 0x2, 0x7E],
  [0x2, 0x28, 0x2, 0xF8FF, 0x2, 0x4A, 0x2, 0x7F, 0x2, 0x18, 0x2, 0xDF, 0x2, 0xAC, 0x2, 0x313F],
  [0x2, 0x28, 0x2, 0x222D, 0x2, 0x8A, 0x2, 0xBE, 0x2, 0x18, 0x2, 0x44EF, 0x2, 0xA2AD, 0x2, 0x6E],
  [0x2, 0x28, 0x2, 0x51FF, 0x2, 0x4A, 0x2, 0x9E, 0x2, 0x18, 0x2, 0xCF, 0x2, 0x3C, 0x2, 0x223F],
  [0x2, 0x28, 0x2, 0x5C, 0x2, 0x8A, 0x2, 0xB2BF, 0x2, 0x18, 0x2, 0x40EF, 0x2, 0xCC, 0x2, 0x6F],
  [0x2, 0x28, 0x2, 0x72FF, 0x2, 0x4A, 0x2, 0x9F, 0x2, 0x18, 0x2, 0xDE, 0x2, 0xAC, 0x2, 0x444F],
  [0x2, 0x28, 0x2, 0x222D, 0x2, 0x8A, 0x2, 0xA8AF, 0x2, 0x18, 0x2, 0xEE, 0x2, 0xA2AD, 0x2, 0x5F],
  [0x2, 0x28, 0x2, 0x44FF, 0x2, 0x4A, 0x2, 0x888F, 0x2, 0x18, 0x2, 0xAAAF, 0x2, 0x3C, 0x2, 0x111F],
  [0x4, 0xF8FD, 0x28, 0x5C, 0x4, 0xBC, 0x8A, 0x66FF, 0x4, 0xCD, 0x18, 0x111D, 0x4, 0x9C, 0x3A, 0xA8AF],
  [0x4, 0xFC, 0x28, 0x313D, 0x4, 0xAC, 0x4A, 0xB3BF, 0x4, 0xB2BD, 0x18, 0xF5FF, 0x4, 0x6C, 0x517D, 0x545F],
  [0x4, 0xF2FD, 0x28, 0x222D, 0x4, 0x22AD, 0x8A, 0x44EF, 0x4, 0xCC, 0x18, 0xF4FF, 0x4, 0x7C, 0x3A, 0x447F],
  [0x4, 0x40DD, 0x28, 0x323D, 0x4, 0x9D, 0x4A, 0xDE, 0x4, 0x88BD, 0x18, 0xFAFF, 0x4, 0x115D, 0xF1FD, 0x444F],
  [0x4, 0xF8FD, 0x28, 0x5C, 0x4, 0xBC, 0x8A, 0xC8EF, 0x4, 0xCD, 0x18, 0x111D, 0x4, 0x9C, 0x3A, 0x888F],
  [0x4, 0xFC, 0x28, 0x313D, 0x4, 0xAC, 0x4A, 0x44DF, 0x4, 0xB2BD, 0x18, 0xA8FF, 0x4, 0x6C, 0x517D, 0x6F],
  [0x4, 0xF2FD, 0x28, 0x222D, 0x4, 0x22AD, 0x8A, 0xEE, 0x4, 0xCC, 0x18, 0xE2EF, 0x4, 0x7C, 0x3A, 0x727F],
  [0x4, 0x40DD, 0x28, 0x323D, 0x4, 0x9D, 0x4A, 0xB1BF, 0x4, 0x88BD, 0x18, 0x73FF, 0x4, 0x115D, 0xF1FD, 0x333F],
  [0x2, 0x88, 0x2, 0x20ED, 0x2, 0xCA, 0x2, 0xC4CF, 0x2, 0x48, 0x2, 0x32FF, 0x2, 0x1A, 0x2, 0x888F],
  [0x2, 0x88, 0x2, 0x6C, 0x2, 0x2A, 0x2, 0xAF, 0x2, 0x48, 0x2, 0x22EF, 0x2, 0xAC, 0x2, 0x5F],
  [0x2, 0x88, 0x2, 0x444D, 0x2, 0xCA, 0x2, 0xCCCF, 0x2, 0x48, 0x2, 0xFE, 0x2, 0x1A, 0x2, 0x6F],
  [0x2, 0x88, 0x2, 0x5C, 0x2, 0x2A, 0x2, 0x9F, 0x2, 0x48, 0x2, 0xDF, 0x2, 0x30FD, 0x2, 0x222F],
  [0x2, 0x88, 0x2, 0x20ED, 0x2, 0xCA, 0x2, 0xC8CF, 0x2, 0x48, 0x2, 0x11FF, 0x2, 0x1A, 0x2, 0x7E],
  [0x2, 0x88, 0x2, 0x6C, 0x2, 0x2A, 0x2, 0x7F, 0x2, 0x48, 0x2, 0xEE, 0x2, 0xAC, 0x2, 0x3E],
  [0x2, 0x88, 0x2, 0x444D, 0x2, 0xCA, 0x2, 0xBE, 0x2, 0x48, 0x2, 0xBF, 0x2, 0x1A, 0x2, 0x3F],
  [0x2, 0x88, 0x2, 0x5C, 0x2, 0x2A, 0x2, 0x9E, 0x2, 0x48, 0x2, 0xDE, 0x2, 0x30FD, 0x2, 0x111F],
  [0x4, 0xA8ED, 0x48, 0x888D, 0x4, 0xDC, 0xCA, 0xF3FF, 0x4, 0xFCFD, 0x2A, 0x3D, 0x4, 0xBC, 0x5A, 0xD8DF],
  [0x4, 0xF8FD, 0x48, 0x6C, 0x4, 0x207D, 0x8A, 0x99FF, 0x4, 0xEC, 0xFA, 0x3C, 0x4, 0xAC, 0x1A, 0x9F],
  [0x4, 0xF2FD, 0x48, 0x7C, 0x4, 0x44CD, 0xCA, 0x76FF, 0x4, 0xF1FD, 0x2A, 0x444D, 0x4, 0xAD, 0x5A, 0xC8CF],
  [0x4, 0xF4FD, 0x48, 0x445D, 0x4, 0x10BD, 0x8A, 0xE4EF, 0x4, 0x54DD, 0xFA, 0x111D, 0x4, 0x9C, 0x1A, 0x222F],
  [0x4, 0xA8ED, 0x48, 0x888D, 0x4, 0xDC, 0xCA, 0xFAFF, 0x4, 0xFCFD, 0x2A, 0x3D, 0x4, 0xBC, 0x5A, 0x11BF],
  [0x4, 0xF8FD, 0x48, 0x6C, 0x4, 0x207D, 0x8A, 0x22EF, 0x4, 0xEC, 0xFA, 0x3C, 0x4, 0xAC, 0x1A, 0x227F],
  [0x4, 0xF2FD, 0x48, 0x7C, 0x4, 0x44CD, 0xCA, 0xD5FF, 0x4, 0xF1FD, 0x2A, 0x444D, 0x4, 0xAD, 0x5A, 0x6F],
  [0x4, 0xF4FD, 0x48, 0x445D, 0x4, 0x10BD, 0x8A, 0x11DF, 0x4, 0x54DD, 0xFA, 0x111D, 0x4, 0x9C, 0x1A, 0x515F],
  [0x6, 0xFC, 0x18, 0x111D, 0x48, 0x888D, 0xAA, 0xD4DF, 0x6, 0xA2AD, 0x5A, 0x76FF, 0x28, 0x223D, 0xBC, 0xAAAF],
  [0x6, 0xEC, 0x18, 0xF5FF, 0x48, 0x6C, 0x8A, 0xCCCF, 0x6, 0x9D, 0xCA, 0x44EF, 0x28, 0x3C, 0xF8FD, 0x317F],
  [0x6, 0xE8ED, 0x18, 0xF1FF, 0x48, 0x7C, 0xAA, 0xC4CF, 0x6, 0x227D, 0x5A, 0xD1DF, 0x28, 0x444D, 0xF4FD, 0x515F],
  [0x6, 0xDC, 0x18, 0xE2EF, 0x48, 0x445D, 0x8A, 0x22BF, 0x6, 0x9C, 0xCA, 0xC8DF, 0x28, 0x222D, 0xF2FD, 0x226F],
  [0x6, 0xFC, 0x18, 0x111D, 0x48, 0x888D, 0xAA, 0xB1BF, 0x6, 0xA2AD, 0x5A, 0x33FF, 0x28, 0x223D, 0xBC, 0xA8AF],
  [0x6, 0xEC, 0x18, 0xB9FF, 0x48, 0x6C, 0x8A, 0xA8BF, 0x6, 0x9D, 0xCA, 0xE4EF, 0x28, 0x3C, 0xF8FD, 0x646F],
  [0x6, 0xE8ED, 0x18, 0xFCFF, 0x48, 0x7C, 0xAA, 0xC8CF, 0x6, 0x227D, 0x5A, 0xEAEF, 0x28, 0x444D, 0xF4FD, 0x747F],
  [0x6, 0xDC, 0x18, 0xFAFF, 0x48, 0x445D, 0x8A, 0xB2BF, 0x6, 0x9C, 0xCA, 0x44DF, 0x28, 0x222D, 0xF2FD, 0x313F],
  [0xF6, 0xFAFD, 0xF1FB, 0x3C, 0x8, 0x32BD, 0x7A, 0x11DF, 0xF6, 0x54DD, 0xF2FB, 0xE4EF, 0xDA, 0x717D, 0xFCFD, 0x737F],
  [0xF6, 0xF3FD, 0xF8FB, 0x111D, 0x8, 0x9C, 0x5A, 0xB1BF, 0xF6, 0xCD, 0xBA, 0xD8DF, 0xF4FB, 0x6C, 0xB9FD, 0x545F],
  [0xF6, 0x76FD, 0xF1FB, 0x2C, 0x8, 0xAC, 0x7A, 0x9F, 0xF6, 0xAD, 0xF2FB, 0xF7FF, 0xDA, 0x4C, 0xF5FD, 0x747F],
  [0xF6, 0xEC, 0xF8FB, 0x1C, 0x8, 0x8C, 0x5A, 0x888F, 0xF6, 0xCC, 0xBA, 0xE2EF, 0xF4FB, 0x115D, 0xA8ED, 0x113F],
  [0xF6, 0xFAFD, 0xF1FB, 0x3C, 0x8, 0x32BD, 0x7A, 0xD1DF, 0xF6, 0x54DD, 0xF2FB, 0xFBFF, 0xDA, 0x717D, 0xFCFD, 0x447F],
  [0xF6, 0xF3FD, 0xF8FB, 0x111D, 0x8, 0x9C, 0x5A, 0x727F, 0xF6, 0xCD, 0xBA, 0x22EF, 0xF4FB, 0x6C, 0xB9FD, 0x444F],
  [0xF6, 0x76FD, 0xF1FB, 0x2C, 0x8, 0xAC, 0x7A, 0x11BF, 0xF6, 0xAD, 0xF2FB, 0xFFFF, 0xDA, 0x4C, 0xF5FD, 0x323F],
  [0xF6, 0xEC, 0xF8FB, 0x1C, 0x8, 0x8C, 0x5A, 0x6F, 0xF6, 0xCC, 0xBA, 0xB8BF, 0xF4FB, 0x115D, 0xA8ED, 0x222F]]

/-- `uvlc_dec_0` (source/core/coding/ht_block_decoding.hpp 73-98). -/
def decUvlc0 : List (List Nat) := [
  [0, 0, 0, 0, 0, 0, 0, 0, 0, 0, 0, 0, 0, 0, 0, 0],
  [0, 0, 0, 0, 0, 0, 0, 0, 0, 0, 0, 0, 0, 0, 0, 0],
  [0, 0, 0, 0, 0, 0, 0, 0, 0, 0, 0, 0, 0, 0, 0, 0],
  [0, 0, 0, 0, 0, 0, 0, 0, 0, 0, 0, 0, 0, 0, 0, 0],
  [0x16AB, 0x401, 0x802, 0x401, 0xC8B, 0x401, 0x802, 0x401, 0x16AB, 0x401, 0x802, 0x401, 0xC8B, 0x401, 0x802, 0x401],
  [0x16AB, 0x401, 0x802, 0x401, 0xC8B, 0x401, 0x802, 0x401, 0x16AB, 0x401, 0x802, 0x401, 0xC8B, 0x401, 0x802, 0x401],
  [0x16AB, 0x401, 0x802, 0x401, 0xC8B, 0x401, 0x802, 0x401, 0x16AB, 0x401, 0x802, 0x401, 0xC8B, 0x401, 0x802, 0x401],
  [0x16AB, 0x401, 0x802, 0x401, 0xC8B, 0x401, 0x802, 0x401, 0x16AB, 0x401, 0x802, 0x401, 0xC8B, 0x401, 0x802, 0x401],
  [0xA02B, 0x2001, 0x4002, 0x2001, 0x600B, 0x2001, 0x4002, 0x2001, 0xA02B, 0x2001, 0x4002, 0x2001, 0x600B, 0x2001, 0x4002, 0x2001],
  [0xA02B, 0x2001, 0x4002, 0x2001, 0x600B, 0x2001, 0x4002, 0x2001, 0xA02B, 0x2001, 0x4002, 0x2001, 0x600B, 0x2001, 0x4002, 0x2001],
  [0xA02B, 0x2001, 0x4002, 0x2001, 0x600B, 0x2001, 0x4002, 0x2001, 0xA02B, 0x2001, 0x4002, 0x2001, 0x600B, 0x2001, 0x4002, 0x2001],
  [0xA02B, 0x2001, 0x4002, 0x2001, 0x600B, 0x2001, 0x4002, 0x2001, 0xA02B, 0x2001, 0x4002, 0x2001, 0x600B, 0x2001, 0x4002, 0x2001],
  [0x36AC, 0xA42C, 0xA82D, 0x2402, 0x2C8C, 0x4403, 0x2803, 0x2402, 0x56AC, 0x640C, 0x4804, 0x2402, 0x4C8C, 0x4403, 0x2803, 0x2402],
  [0x36AC, 0xA42C, 0x680D, 0x2402, 0x2C8C, 0x4403, 0x2803, 0x2402, 0x56AC, 0x640C, 0x4804, 0x2402, 0x4C8C, 0x4403, 0x2803, 0x2402],
  [0x36AC, 0xA42C, 0xA82D, 0x2402, 0x2C8C, 0x4403, 0x2803, 0x2402, 0x56AC, 0x640C, 0x4804, 0x2402, 0x4C8C, 0x4403, 0x2803, 0x2402],
  [0x36AC, 0xA42C, 0x680D, 0x2402, 0x2C8C, 0x4403, 0x2803, 0x2402, 0x56AC, 0x640C, 0x4804, 0x2402, 0x4C8C, 0x4403, 0x2803, 0x2402],
  [0xFED6, 0xEC2C, 0xF02D, 0x6C02, 0xF4B6, 0x8C03, 0x7003, 0x6C02, 0x7EAC, 0xAC0C, 0x9004, 0x6C02, 0x748C, 0x8C03, 0x7003, 0x6C02],
  [0x9EAD, 0xEC2C, 0xB00D, 0x6C02, 0x948D, 0x8C03, 0x7003, 0x6C02, 0x7EAC, 0xAC0C, 0x9004, 0x6C02, 0x748C, 0x8C03, 0x7003, 0x6C02],
  [0xBEB6, 0xEC2C, 0xF02D, 0x6C02, 0xB496, 0x8C03, 0x7003, 0x6C02, 0x7EAC, 0xAC0C, 0x9004, 0x6C02, 0x748C, 0x8C03, 0x7003, 0x6C02],
  [0x9EAD, 0xEC2C, 0xB00D, 0x6C02, 0x948D, 0x8C03, 0x7003, 0x6C02, 0x7EAC, 0xAC0C, 0x9004, 0x6C02, 0x748C, 0x8C03, 0x7003, 0x6C02]]

/-- `uvlc_dec_1` (source/core/coding/ht_block_decoding.hpp 108-128). -/
def decUvlc1 : List (List Nat) := [
  [0, 0, 0, 0, 0, 0, 0, 0, 0, 0, 0, 0, 0, 0, 0, 0],
  [0, 0, 0, 0, 0, 0, 0, 0, 0, 0, 0, 0, 0, 0, 0, 0],
  [0, 0, 0, 0, 0, 0, 0, 0, 0, 0, 0, 0, 0, 0, 0, 0],
  [0, 0, 0, 0, 0, 0, 0, 0, 0, 0, 0, 0, 0, 0, 0, 0],
  [0x16AB, 0x401, 0x802, 0x401, 0xC8B, 0x401, 0x802, 0x401, 0x16AB, 0x401, 0x802, 0x401, 0xC8B, 0x401, 0x802, 0x401],
  [0x16AB, 0x401, 0x802, 0x401, 0xC8B, 0x401, 0x802, 0x401, 0x16AB, 0x401, 0x802, 0x401, 0xC8B, 0x401, 0x802, 0x401],
  [0x16AB, 0x401, 0x802, 0x401, 0xC8B, 0x401, 0x802, 0x401, 0x16AB, 0x401, 0x802, 0x401, 0xC8B, 0x401, 0x802, 0x401],
  [0x16AB, 0x401, 0x802, 0x401, 0xC8B, 0x401, 0x802, 0x401, 0x16AB, 0x401, 0x802, 0x401, 0xC8B, 0x401, 0x802, 0x401],
  [0xA02B, 0x2001, 0x4002, 0x2001, 0x600B, 0x2001, 0x4002, 0x2001, 0xA02B, 0x2001, 0x4002, 0x2001, 0x600B, 0x2001, 0x4002, 0x2001],
  [0xA02B, 0x2001, 0x4002, 0x2001, 0x600B, 0x2001, 0x4002, 0x2001, 0xA02B, 0x2001, 0x4002, 0x2001, 0x600B, 0x2001, 0x4002, 0x2001],
  [0xA02B, 0x2001, 0x4002, 0x2001, 0x600B, 0x2001, 0x4002, 0x2001, 0xA02B, 0x2001, 0x4002, 0x2001, 0x600B, 0x2001, 0x4002, 0x2001],
  [0xA02B, 0x2001, 0x4002, 0x2001, 0x600B, 0x2001, 0x4002, 0x2001, 0xA02B, 0x2001, 0x4002, 0x2001, 0x600B, 0x2001, 0x4002, 0x2001],
  [0xB6D6, 0xA42C, 0xA82D, 0x2402, 0xACB6, 0x4403, 0x2803, 0x2402, 0x36AC, 0x640C, 0x4804, 0x2402, 0x2C8C, 0x4403, 0x2803, 0x2402],
  [0x56AD, 0xA42C, 0x680D, 0x2402, 0x4C8D, 0x4403, 0x2803, 0x2402, 0x36AC, 0x640C, 0x4804, 0x2402, 0x2C8C, 0x4403, 0x2803, 0x2402],
  [0x76B6, 0xA42C, 0xA82D, 0x2402, 0x6C96, 0x4403, 0x2803, 0x2402, 0x36AC, 0x640C, 0x4804, 0x2402, 0x2C8C, 0x4403, 0x2803, 0x2402],
  [0x56AD, 0xA42C, 0x680D, 0x2402, 0x4C8D, 0x4403, 0x2803, 0x2402, 0x36AC, 0x640C, 0x4804, 0x2402, 0x2C8C, 0x4403, 0x2803, 0x2402]]

end Verif.Ht

#!/usr/bin/env python3
"""writes lean/Verif/Proof/CrcPows.lean: the bit matrices (columns) of 2^i steps of the CRC-32 register, checked in CrcPeriod.lean"""
P=0xEDB88320
def step(s): return (s>>1)^(P if s&1 else 0)
def ap(m,v):
    r=0
    for i in range(32):
        if v>>i&1: r^=m[i]
    return r
m=[step(1<<i) for i in range(32)]
out=[m]
for _ in range(31):
    m=[ap(m,c) for c in m]; out.append(m)
with open('/verif/lean/Verif/Proof/CrcPows.lean','w') as f:
    f.write("/-! Generated by tools/crcpows.py: the columns of the matrix of 2^i steps of the CRC-32 register without input, i = 0..31.\nNothing is assumed about these numbers: they are checked in Proof/CrcPeriod. -/\nnamespace Tiles\n\ndef crcPows : List (List Nat) := [\n")
    f.write(",\n".join("  ["+", ".join(map(str,r))+"]" for r in out))
    f.write("]\n\nend Tiles\n")

#!/usr/bin/env python3
"""Transcribes the table zj_escapeChars (zzzjson.h:1036-1106) into Lean. Reads /repo as text."""
import re
src = open('/repo/zzzjson.h', encoding='utf-8').read().split('\n')
txt = '\n'.join(src[1035:1106])
ents = re.findall(r'\{"((?:[^"\\]|\\.)*)",\s*(\d+)\}', txt)
assert len(ents) == 256
def dec(s):
    out = []; i = 0
    while i < len(s):
        if s[i] == '\\':
            if s[i+1] == 'x':
                out.append(int(s[i+2:i+4], 16)); i += 4; continue
            out.append(ord(s[i+1])); assert s[i+1] in '\\"'; i += 2; continue
        out.append(ord(s[i])); i += 1
    return out
rows = []
for k, (s, n) in enumerate(ents):
    rows.append('([%s], %s)' % (', '.join('0x%02X' % b for b in dec(s)), n))
lines = []
for k in range(0, 256, 4):
    lines.append('  ' + ', '.join(rows[k:k+4]))
print('def escapeTable : List (Bytes × Nat) := [\n' + ',\n'.join(lines) + ']')

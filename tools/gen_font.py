"""Generate lean/Verif/Model/Font.lean from the arms of Font::map_char in /repo/src/mathml.rs."""
import re

src = open('/repo/src/mathml.rs').read().split('\n')
i = next(k for k, l in enumerate(src) if 'fn map_char(self, c: char)' in l)
body = '\n'.join(src[i + 2:i + 160])
body = body[:body.index('// Upright mappings')]
body = re.sub(r'//.*', '', body)
arms = re.findall(r"\(Font::(\w+),\s*(.*?)\)\s*=>\s*\{?\s*c as u32 \+ (0x[0-9A-F]+)\s*\}?,?", body, re.S)
assert body.count('=>') == len(arms)


def ch(s):
    s = s.strip().strip("'")
    if s.startswith('\\u{'):
        return int(s[3:-1], 16)
    assert len(s) == 1
    return ord(s)


ents = []
for f, pat, off in arms:
    for alt in pat.split('|'):
        alt = alt.strip()
        if '..=' in alt:
            a, b = alt.split('..=')
            lo, hi = ch(a), ch(b)
        else:
            lo = hi = ch(alt)
        ents.append(f"  (.{f[0].lower() + f[1:]}, 0x{lo:04X}, 0x{hi:04X}, {off})")

path = '/verif/lean/Verif/Model/Font.lean'
old = open(path).read()
head = old[:old.index('List (Font × Nat × Nat × Nat) := [') + len('List (Font × Nat × Nat × Nat) := [')]
tail = old[old.index('\n/-- First matching arm'):]
open(path, 'w').write(head + '\n' + ',\n'.join(ents) + ']\n' + tail)

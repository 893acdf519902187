"""Divides glyphs into parts that normalize_glyphs can treat one after the other.

usage: split.py NORMALIZED GLYPHS... DIRECTORY
NORMALIZED is a normalised file with all the pictures; it gives their order."""
import sys

def parse(p):
    L = open(p, 'rb').read().split(b'\n'); i = 0; R = []
    while i < len(L) and L[i].strip():
        n = int(L[i + 1]); R.append((L[i], L[i + 2:i + 2 + n])); i += 2 + n
    return R

real = parse(sys.argv[1])
pos = {h: i for i, (h, _) in enumerate(real)}
G = [g for p in sys.argv[2:-1] for g in parse(p)]
count = [0] * len(real)
for h, _ in G: count[pos[h]] += 1
part = [0] * len(real); k = 0; c = 0
for i in range(len(real)):
    part[i] = k; c += count[i]
    if c >= 500: k += 1; c = 0
out = {}
for h, vs in G:
    out.setdefault(part[pos[h]], []).append(b'\n'.join([h, b'%d' % len(vs)] + vs) + b'\n')
for k in out: open('%s/%04d.in' % (sys.argv[-1], k), 'wb').write(b''.join(out[k]))

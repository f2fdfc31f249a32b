#!/usr/bin/env python3
"""Checks that citations of the form `name` (file:a-b) in the model point into the lines of the
C function of that name, and that cited line numbers exist."""
import re, glob, os, sys
src = '/repo/src/'
root = os.path.dirname(os.path.dirname(os.path.abspath(__file__)))
lines = {}
ranges = {}
def load(f):
    if f in lines: return
    ls = open(src + f).read().split('\n')
    lines[f] = ls
    r = {}
    i = 0
    while i < len(ls):
        l = ls[i]
        if l and (l[0].isalpha()) and not l.startswith(('typedef', 'struct', 'union', 'enum', 'extern')):
            j = i; t = l
            while j + 1 < len(ls) and not re.search(r'[{;]\s*$', t) and j - i < 8:
                j += 1; t += ' ' + ls[j]
            m = re.search(r'([A-Za-z_0-9]+)\s*\(', t)
            if m and t.rstrip().endswith('{'):
                k = j
                while k < len(ls) and ls[k] != '}': k += 1
                r[m.group(1)] = (i + 1, k + 1)
                i = k
        i += 1
    ranges[f] = r
bad = 0
for p in sorted(glob.glob(root + '/lean/Verif/**/*.lean', recursive=True)):
    t = open(p).read()
    for m in re.finditer(r'([a-z_0-9]+\.[ch]):(\d+)(?:-(\d+))?', t):
        f, a, b = m.group(1), int(m.group(2)), int(m.group(3) or m.group(2))
        if not os.path.exists(src + f):
            print(p, m.group(0), 'no such file'); bad += 1; continue
        load(f)
        if b > len(lines[f]) or a > b:
            print(p, m.group(0), 'bad lines'); bad += 1
        ctx = t[max(0, m.start() - 160):m.start()]
        ns = re.findall(r'`([A-Za-z_0-9]+)`', ctx)
        if ns:
            n = ns[-1]
            if n in ranges[f]:
                x, y = ranges[f][n]
                # static line above, comments
                if not (x - 2 <= a and b <= y + 2):
                    ln = t[:m.start()].count('\n') + 1
                    print(f'{os.path.relpath(p, root)}:{ln}: `{n}` cited {m.group(0)} is at {x}-{y}'); bad += 1
print(bad, 'problems')

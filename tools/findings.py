"""Prints section 4 of DESIGN.md from the docstrings of the theorems named ..._false and ..._panics."""
import re, glob
for f in sorted(glob.glob('/verif/lean/Verif/Props/*.lean')):
    s = open(f).read()
    for m in re.finditer(r'(?:/--((?:(?!-/).)*?)-/\s*)?theorem (\w+_(?:false|panics)) ', s, re.S):
        doc = ' '.join((m.group(1) or '(no comment)').split())
        print(f'* `{m.group(2)}` (`{f.split("/")[-1]}`): {doc}')

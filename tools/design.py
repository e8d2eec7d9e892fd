"""Regenerates the findings at the end of DESIGN.md."""
import subprocess
p = '/verif/DESIGN.md'
s = open(p).read()
i = s.index('<!-- findings -->') + len('<!-- findings -->\n')
open(p, 'w').write(s[:i] + '\n' + subprocess.run(['python3', '/verif/tools/findings.py'], capture_output=True, text=True).stdout)

#!/usr/bin/env python3
"""Regenerates DESIGN.md from tools/design_tpl.md and the rows in tools/design_rows.txt / tools/design_files.txt."""
import os
t=os.path.dirname(os.path.abspath(__file__))
def rd(n):
    p=t+'/'+n
    return open(p).read().strip('\n') if os.path.exists(p) else ''
s=open(t+'/design_tpl.md').read()
def sub(s,tag,x): return s.replace(tag+'\n',(x+'\n') if x else '')
s=sub(s,'@@ROWS@@',(rd('design_rows.txt')+'\n').lstrip('\n')+'')
s=sub(s,'@@FILES@@',rd('design_files.txt'))
open(os.path.dirname(t)+'/DESIGN.md','w').write(s)
